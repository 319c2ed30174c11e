{"id": "C01", "title": "Option validation accepts exactly the legal option sets", "statement": "Validating an options object succeeds (status 0) if and only if every option that the user set lies in its legal domain: the descent algorithm, Hessian, model and degree names are recognised strings, dxmin, inf, miter and msimul are not <= 0, and the three tolerances are not < 0. Otherwise the status is 1 (argument error). fout and verbose never cause a rejection.", "quantifier": "for every options object (any subset of fields present, any numeric values including NaN and infinities, any strings)", "why_tests_cant": "The option space is a product of unbounded numeric ranges and arbitrary strings; tests sample a handful of combinations and never the order-dependent early exits.", "anchors": ["sqpdfo/sqpdfo_options.py:sqpdfo_options_", "sqpdfo/sqpdfo_values.py:sqpdfoValues"]}
{"id": "C02", "title": "Accepted options are complete, legal and faithful", "statement": "When validation succeeds every option has a value, each value is legal, each value the user gave legally is kept, each missing value takes its documented default, a tolerance given as 0 becomes 1e-5, and names are matched ignoring case and spaces.", "quantifier": "for every options object that validation accepts", "why_tests_cant": "A test checks one field at a time for one value; it cannot show that no combination of fields leaves one unset or silently changed.", "anchors": ["sqpdfo/sqpdfo_options.py:sqpdfo_options_"]}
{"id": "C03", "title": "Bad arguments are reported before any user function is called", "statement": "If the objective is missing, constraints are announced without a constraint function, the start point is missing or not a vector, an option is illegal, a lower bound exceeds its upper bound, or every variable is fixed by its bounds, optimize returns status 1 (arguments) or 2 (problem structure) and neither the objective nor the constraint function has been called.", "quantifier": "for every combination of arguments, options, bounds and dimension", "why_tests_cant": "Ordering of checks against side effects ranges over all dimensions and all bad-component positions.", "anchors": ["sqpdfo/sqpdfo.py:sqpdfo_", "sqpdfo/sqpdfo_prelim.py:sqpdfo_prelim_"]}
{"id": "C04", "title": "Start point and initial sample points respect the bounds", "statement": "If every variable has lb < ub, the start point actually used satisfies lb+D <= x <= ub-D for the final initial radius D > 0, D is at most 1 and at most half of every bound gap, and hence each of the n+1 initial sample points (x itself and x moved by D backwards along each axis) lies within the bounds. A start point that already has distance > D to every bound is not moved.", "quantifier": "for every dimension n >= 1, every start point and every pair of bound vectors with lb < ub componentwise", "why_tests_cant": "The loop shrinks the radius while moving earlier components, so correctness depends on the whole sequence of bound gaps, of any length.", "anchors": ["sqpdfo/sqpdfo_prelim.py:sqpdfo_prelim_ (bounds loop)"]}
{"id": "C05", "title": "Inconsistent bounds are always detected", "statement": "The set-up reports status 2 if and only if some lower bound exceeds its upper bound, or all variables are fixed (lb = ub for all components).", "quantifier": "for every dimension and all bound vectors", "why_tests_cant": "The position of the offending component is unbounded.", "anchors": ["sqpdfo/sqpdfo_prelim.py:sqpdfo_prelim_ (bounds loop)"]}
{"id": "C06", "title": "Failed evaluations are reported and never recorded as values", "statement": "If at some point the user's objective raises, returns NaN or +-infinity, or the constraint function raises or returns a NaN component, then the evaluation returns status 3 and neither an objective value nor constraint values are appended to the history; otherwise the status is unchanged and exactly one value is appended.", "quantifier": "for every outcome of the user functions (value, NaN, infinities, exception) and every history so far", "why_tests_cant": "The case analysis combines exception paths and special floating-point values with arbitrary histories.", "anchors": ["sqpdfo/sqpdfo_augmX_evalf.py:sqpdfo_augmX_evalf_", "sqpdfo/sqpdfo_func.py:sqpdfo_func_", "sqpdfo/sqpdfo_evalfgh.py:sqpdfo_evalfgh_"]}
{"id": "C07", "title": "Recorded values are finite and clipped", "statement": "Every recorded objective value is finite and at most 1e25, every recorded constraint value lies in [-1e25, 1e25], and values within these limits are recorded unchanged.", "quantifier": "for all sequences of evaluations", "why_tests_cant": "Needs an invariant over all evaluation histories.", "anchors": ["sqpdfo/sqpdfo_augmX_evalf.py:sqpdfo_augmX_evalf_"]}
{"id": "C08", "title": "The evaluation counter counts the calls of the user's objective", "statement": "At every moment the reported number of evaluations equals the number of times the objective has been called, and equals the number of stored points (initial set restarts excepted, where the stored points restart but the counter does not).", "quantifier": "for all runs, including failing evaluations", "why_tests_cant": "Unbounded executions with failures at arbitrary positions.", "anchors": ["sqpdfo/sqpdfo_augmX_evalf.py:sqpdfo_augmX_evalf_", "sqpdfo/sqpdfo_main.py:sqpdfo_main_"]}
{"id": "C09", "title": "Iteration budget", "statement": "The main loop performs at most options.miter passes, the reported iteration count never exceeds options.miter + 1, and status 5 is returned only when the count has reached options.miter.", "quantifier": "for every problem, every behaviour of the numerical kernels, every miter >= 1", "why_tests_cant": "Holds for unbounded loops with arbitrary branch outcomes; tests see single traces.", "anchors": ["sqpdfo/sqpdfo_main.py:sqpdfo_main_"]}
{"id": "C10", "title": "Evaluation budget", "statement": "The number of objective evaluations never exceeds max(n+1, options.msimul - 1 + p), where p is the largest size of the interpolation set (n+1, 2n+1 or (n+1)(n+2)/2 depending on final_degree), and status 6 is only returned when the count has reached options.msimul. (The stricter bound 'at most msimul evaluations' does not hold: the budget is only checked at the top of the loop.)", "quantifier": "for every problem, every behaviour of the numerical kernels, every msimul >= 1", "why_tests_cant": "Overshoot depends on unbounded executions and on how many points are replaced per iteration.", "anchors": ["sqpdfo/sqpdfo_main.py:sqpdfo_main_", "sqpdfo/bcdfo_repair_Y.py:bcdfo_repair_Y_"]}
{"id": "C11", "title": "The main loop terminates with a meaningful status", "statement": "If the kernels return, the main loop always ends, and the status it reports is one of 0, 3, 5, 6, 8, 15, 30 (or the status of a failing kernel); no other documented status can be produced.", "quantifier": "for every problem and every sequence of kernel results", "why_tests_cant": "Termination and the set of reachable exits quantify over infinite families of executions.", "anchors": ["sqpdfo/sqpdfo_main.py:sqpdfo_main_", "sqpdfo/sqpdfo_values.py:sqpdfoValues"]}
{"id": "C12", "title": "Status 0 certifies first-order accuracy", "statement": "When optimize returns status 0 the reported norm of the Lagrangian gradient is at most tol_grad and the reported infeasibility at most tol_feas. (In the code a second exit accepts 100 times the tolerances; the guaranteed bound is 100*tol.)", "quantifier": "for all executions ending with status 0", "why_tests_cant": "The exit used depends on the execution; tests assert closeness to known solutions only.", "anchors": ["sqpdfo/sqpdfo_main.py:sqpdfo_main_ (convergence tests)", "sqpdfo/sqpdfo.py (factor_CV)"]}
{"id": "C13", "title": "Status 15 certifies a negligible trust region", "statement": "Status 15 is returned only when the trust-region radius (or the radius of the improvement step) has fallen below 1e-10 (epsilon*1e-5) or below 10*eps times the norm of the current iterate.", "quantifier": "for all executions ending with status 15", "why_tests_cant": "There are several exits at different depths of nesting; tests rarely reach any.", "anchors": ["sqpdfo/sqpdfo_main.py:sqpdfo_main_"]}
{"id": "C14", "title": "Interpolation data are consistent with the evaluation history", "statement": "At the end of every pass of the main loop, for each column j of the interpolation set the stored index refers to an evaluated point, the stored objective value is the recorded value of that point, and the base point (column 0) is the point reported as current best iterate with its recorded value.", "quantifier": "for all executions of any length", "why_tests_cant": "This is an inductive invariant over augmentation, replacement, swap, improvement and acceptance steps in any order.", "anchors": ["sqpdfo/sqpdfo_main.py:sqpdfo_main_", "sqpdfo/sqpdfo_swap_in_Y.py", "sqpdfo/bcdfo_include_in_Y.py", "sqpdfo/bcdfo_replace_in_Y.py", "sqpdfo/bcdfo_augment_Y.py"]}
{"id": "C15", "title": "The returned point is an evaluated point", "statement": "The x returned by optimize after the main loop is one of the points at which the objective was evaluated successfully, and the function value printed in the final summary is the (clipped) value recorded for it.", "quantifier": "for all executions", "why_tests_cant": "Needs the history invariant.", "anchors": ["sqpdfo/sqpdfo.py:sqpdfo_ (result recovery)", "sqpdfo/sqpdfo_main.py:sqpdfo_main_"]}
{"id": "C16", "title": "info.f is the objective value of the returned point", "statement": "The field f of the returned info equals the objective value at the returned x. (This fails on some exits; it holds for the successful ones.)", "quantifier": "for all executions", "why_tests_cant": "The discrepancy occurs only for particular interleavings of a rejected trial and a budget exit.", "anchors": ["sqpdfo/sqpdfo.py:sqpdfo_ (L342-377)", "sqpdfo/sqpdfo_main.py:sqpdfo_main_"]}
{"id": "C17", "title": "Accepted steps decrease the merit function", "statement": "A trial point becomes the new iterate through the success test only if the achieved reduction of the merit function f + sigma*||ce|| is at least 1e-4 times a strictly positive predicted reduction, hence the merit function (for the current penalty) strictly decreases; the exit 'merit function no longer decreases' (status 8) cannot occur in exact arithmetic.", "quantifier": "for all iterations, all values of f, constraints, penalty and predicted reductions", "why_tests_cant": "Universally quantified over real values and over the unbounded iteration history.", "anchors": ["sqpdfo/sqpdfo_main.py:sqpdfo_main_ (ratio test)"]}
{"id": "C18", "title": "Penalty parameter is monotone and makes the prediction dominate", "statement": "The penalty parameter never decreases during a run and stays >= 1 and after its update the predicted reduction of the merit function is at least 0.3*sigma times the predicted reduction of the constraint norm whenever the latter is positive.", "quantifier": "for all iterations and all model values", "why_tests_cant": "A real-arithmetic inequality for all values plus an invariant over all executions.", "anchors": ["sqpdfo/sqpdfo_main.py:sqpdfo_main_ (penalty update)"]}
{"id": "C19", "title": "Trust-region radius stays positive and is reduced on failure", "statement": "The trust-region radius is always positive; after a rejected step that could not be used to improve the interpolation set the new radius is at most half of the old one and at least 0.01*min(radius, step norm); after a successful step it is never smaller than before. (The nominal maximum 1e5 is not an invariant.)", "quantifier": "for all iterations and all step norms, function values", "why_tests_cant": "Interpolated reduction factors range over all reals.", "anchors": ["sqpdfo/sqpdfo_main.py:sqpdfo_main_ (radius updates)"]}
{"id": "C20", "title": "Results do not depend on previous calls", "statement": "Calling optimize twice with the same arguments in the same process gives the same result, whatever problems were solved in between. (False: slack-variable state of an earlier problem with inequality constraints is still used when a later problem has none.)", "quantifier": "for all sequences of calls", "why_tests_cant": "Hidden global state shows only for particular call sequences.", "anchors": ["sqpdfo/sqpdfo.py:sqpdfo_ (slack set-up)", "sqpdfo/sqpdfo_global_variables.py", "sqpdfo/sqpdfo_prelim.py", "sqpdfo/sqpdfo_optimality.py"]}
{"id": "C21", "title": "User's option object is not modified", "statement": "optimize never changes an attribute of the options instance passed by the caller, so the same object can be used for repeated calls. (If the caller passes a class instead of an instance the class attributes are overwritten, and the second call fails.)", "quantifier": "for all option objects", "why_tests_cant": "Aliasing must be excluded on every path.", "anchors": ["sqpdfo/sqpdfo.py:sqpdfo_", "sqpdfo/sqpdfo_prelim.py:sqpdfo_prelim_", "sqpdfo/sqpdfo_options.py:sqpdfo_options_"]}
{"id": "C22", "title": "Slack reformulation is equivalent to the inequality constraints", "statement": "With slack s for an inequality ci, the residual ci - s^2 can be made zero exactly when ci >= 0, and the initial slack chosen by the set-up makes the residual equal to min(ci, 0) (if the square root does not exceed the cap).", "quantifier": "for all constraint values and numbers of slacks", "why_tests_cant": "Universally quantified real identity including the capped branch.", "anchors": ["sqpdfo/sqpdfo_prelim.py (L489-499)", "sqpdfo/sqpdfo_optimality.py", "sqpdfo/sqpdfo_main.py (slack update)"]}
{"id": "C23", "title": "One slack per one-sided and two per two-sided inequality", "statement": "With mi > 0 inequalities, the number of slack variables set up is mi plus the number of constraints whose bounds satisfy -1e7 < li < ui < 1e7; the bound vectors are extended by exactly that many entries [0, 1e20].", "quantifier": "for all mi, me and bound vectors li, ui", "why_tests_cant": "The loop runs over a range evaluated once while the counter changes.", "anchors": ["sqpdfo/sqpdfo.py:sqpdfo_ (L132-148)"]}
{"id": "C24", "title": "Swapping two interpolation points is a consistent permutation", "statement": "Swapping points i and j exchanges exactly these two columns in points, indices, objective values and constraint values, leaves all others unchanged, and swapping again restores the original data.", "quantifier": "for all sets, sizes and index pairs, including i = j", "why_tests_cant": "All sizes and index pairs.", "anchors": ["sqpdfo/sqpdfo_swap_in_Y.py:sqpdfo_swap_in_Y_"]}
{"id": "C25", "title": "Best-point selection picks a point inside the bounds with least merit", "statement": "After the selection, the base point has a merit value not larger than the merit value of any interpolation point inside the bounds, and it is never worse than before. (Fails: the second point is never selected, bounds are compared across components, and the penalty is truncated to an integer.)", "quantifier": "for all interpolation sets, bounds and values", "why_tests_cant": "Off-by-one and broadcasting errors show only for particular positions of the minimum.", "anchors": ["sqpdfo/sqpdfo_find_smallf.py:sqpdfo_find_smallf_"]}
{"id": "C26", "title": "Replacing a point keeps the set poised", "statement": "A new point replaces an interpolation point only if the Lagrange polynomial of the replaced point has absolute value larger than the given threshold at the new point, the replaced point is among the candidates and maximises the selection criterion; if no candidate qualifies nothing is changed and -1 is reported.", "quantifier": "for all sets, thresholds, criteria and Lagrange values", "why_tests_cant": "All sizes and value patterns.", "anchors": ["sqpdfo/bcdfo_include_in_Y.py:bcdfo_include_in_Y_"]}
{"id": "C27", "title": "Geometry repair never touches the base point and is bounded", "statement": "The repair procedure never replaces the base point, reports every replaced index at most once, all reported indices are valid, unreported points are unchanged, and it needs at most 20 rounds, hence at most p-1 new evaluations.", "quantifier": "for all interpolation sets and all results of the Lagrange maximisation", "why_tests_cant": "Unbounded set sizes and arbitrary replacement sequences.", "anchors": ["sqpdfo/bcdfo_repair_Y.py:bcdfo_repair_Y_", "sqpdfo/bcdfo_find_new_yj.py"]}
{"id": "C28", "title": "Truncated CG stays in the trust region", "statement": "The solution returned by the truncated conjugate gradient solver has norm at most delta, and exactly delta when the solver reports that the boundary was hit or negative curvature was found.", "quantifier": "for all symmetric matrices, right-hand sides, radii delta > 0, tolerances and iteration limits, all dimensions", "why_tests_cant": "Requires an invariant over an unbounded number of CG iterations.", "anchors": ["sqpdfo/sqpdfo_truncated_cg.py:sqpdfo_truncated_cg_"]}
{"id": "C29", "title": "Truncated CG status is truthful", "statement": "Status 0 implies that the residual norm ||A x - b|| is at most the tolerance; status 2 implies that a direction of nonpositive curvature of A was found; at most max_iter+1 iterations are counted; status -1 only if the limit was reached.", "quantifier": "for all inputs", "why_tests_cant": "Loop invariant (the recurrence for the residual equals the true residual).", "anchors": ["sqpdfo/sqpdfo_truncated_cg.py:sqpdfo_truncated_cg_"]}
{"id": "C30", "title": "Truncated CG never increases the quadratic model", "statement": "The value of x^T A x/2 - b^T x at the returned point is at most 0, its value at the start, and it is nonincreasing along the iterations.", "quantifier": "for all symmetric A, all b, delta > 0", "why_tests_cant": "Conjugacy/orthogonality invariants over unbounded iterations.", "anchors": ["sqpdfo/sqpdfo_truncated_cg.py:sqpdfo_truncated_cg_"]}
{"id": "C31", "title": "BFGS update preserves symmetry and positive definiteness", "statement": "If the current Hessian approximation is symmetric positive definite and the update reports success, the new approximation is symmetric positive definite.", "quantifier": "for all dimensions, all steps s and gradient changes y", "why_tests_cant": "Matrix inequality for all real data.", "anchors": ["sqpdfo/sqpdfo_bfgs_update.py:sqpdfo_bfgs_update_"]}
{"id": "C32", "title": "BFGS update satisfies the (damped) secant equation and Powell's bound", "statement": "After a successful update the new matrix maps the step to the (possibly damped) gradient change, damping happens exactly when y^T s < 0.2 s^T H s, the damped value satisfies y^T s >= 0.2 s^T H s > 0, and for a positive definite matrix the update fails only for a zero step.", "quantifier": "for all dimensions, steps and gradient changes", "why_tests_cant": "Real-algebraic identity for all inputs.", "anchors": ["sqpdfo/sqpdfo_bfgs_update.py:sqpdfo_bfgs_update_"]}
{"id": "C33", "title": "Convexification returns a positive semidefinite matrix and leaves convex ones alone", "statement": "If the matrix has no negative eigenvalue it is returned unchanged; otherwise the result is symmetric positive definite with all eigenvalues >= 1e-10.", "quantifier": "for all symmetric matrices of any dimension", "why_tests_cant": "Spectral property for all matrices.", "anchors": ["sqpdfo/sqpdfo_check_convex.py:sqpdfo_check_convex_"]}
{"id": "C34", "title": "Polynomial evaluation, gradient and Hessian agree", "statement": "For every coefficient vector of at most quadratic length, every base point and scaling, evaluating the polynomial at x+d equals value + gradient(x)*d + d*Hessian*d/2, where value, gradient and Hessian are those computed by the library, with or without shifting.", "quantifier": "for all dimensions n, all coefficient vectors of length 1..(n+1)(n+2)/2 (including partially filled subdiagonals), all x, d", "why_tests_cant": "The coefficient layout (subdiagonals, truncated lengths) has index arithmetic for all n and lengths.", "anchors": ["sqpdfo/bcdfo_evalZ.py", "sqpdfo/bcdfo_evalP.py", "sqpdfo/bcdfo_gradP.py", "sqpdfo/bcdfo_hessP.py"]}
{"id": "C35", "title": "Hessian is symmetric and of the right size", "statement": "The Hessian computed from polynomial coefficients is a symmetric n x n matrix, zero for linear polynomials and diagonal for diagonal-degree polynomials; the monomial vector has exactly the requested number of entries.", "quantifier": "for all n and coefficient vectors", "why_tests_cant": "All sizes.", "anchors": ["sqpdfo/bcdfo_hessP.py", "sqpdfo/bcdfo_evalZ.py"]}
{"id": "C36", "title": "The model interpolates the data", "statement": "With exact QR factors of the (well conditioned) interpolation matrix, the model computed from the interpolation set takes the recorded value at every interpolation point, for objective and constraints, independent of shift and scaling.", "quantifier": "for all poised sets, all values, all dimensions, sub-basis models of any degree and minimum-norm models", "why_tests_cant": "Linear-algebra identity over all sizes.", "anchors": ["sqpdfo/bcdfo_computeP.py:bcdfo_computeP_", "sqpdfo/bcdfo_build_QR_of_Y.py", "sqpdfo/bcdfo_evalP.py"]}
{"id": "C37", "title": "Lagrange polynomials are cardinal", "statement": "The j-th Lagrange polynomial is 1 at the j-th interpolation point and 0 at all others, both when computed by coefficients and when evaluated directly, and both computations agree at every point.", "quantifier": "for all poised sub-basis sets of any size", "why_tests_cant": "Linear-algebra identity over all sizes.", "anchors": ["sqpdfo/bcdfo_computeLj.py", "sqpdfo/bcdfo_evalL.py"]}
{"id": "C38", "title": "Projected gradient characterises first-order points", "statement": "For a point within its bounds, the projected gradient has norm zero iff the point satisfies the first-order conditions of bound-constrained minimisation (g_i = 0 at interior components, g_i >= 0 at lower bounds, g_i <= 0 at upper bounds); its norm is the largest component, each component is bounded by |g_i|, and x minus the projected gradient stays within the bounds.", "quantifier": "for all dimensions, points, gradients and bounds", "why_tests_cant": "Universally quantified over reals and dimensions.", "anchors": ["sqpdfo/bcdfo_projgrad.py:bcdfo_projgrad_"]}
{"id": "C39", "title": "Multiplier signs follow the bounds", "statement": "Multipliers of variables without bounds are zero, with only an upper bound nonnegative, with only a lower bound nonpositive; at an active lower (upper) bound the multiplier is nonpositive (nonnegative), up to the tolerance dxmin.", "quantifier": "for all points, bounds and gradients (given a feasible least-squares solver)", "why_tests_cant": "Combination of finite, infinite and active bounds for all components.", "anchors": ["sqpdfo/sqpdfo_compute_multiplier.py:sqpdfo_compute_multiplier_"]}
{"id": "C40", "title": "Multipliers are least-squares multipliers", "statement": "The multiplier minimises ||g + A^T lm|| subject to its sign restrictions. (Holds when no free component is sign restricted; false in general, since the solver minimises ||A(g + A^T lm)|| instead.)", "quantifier": "for all gradients, Jacobians and bounds", "why_tests_cant": "The two minimisers coincide in many examples and differ for others.", "anchors": ["sqpdfo/sqpdfo_compute_multiplier.py:sqpdfo_compute_multiplier_", "sqpdfo/blls.py"]}
{"id": "C41", "title": "Reported optimality measures are the KKT residuals", "statement": "The reported Lagrangian gradient equals g + (bound multipliers of the near-active bounds) + Jacobian^T times the constraint multipliers, and the feasibility vector equals the constraint values minus squared slacks for the inequality part.", "quantifier": "for all dimensions and data", "why_tests_cant": "All sizes and active sets.", "anchors": ["sqpdfo/sqpdfo_optimality.py:sqpdfo_optimality_"]}
{"id": "C42", "title": "Trust-region step satisfies the radius", "statement": "The step returned by the unconstrained trust-region solver has norm at most (1+eps)*Delta, is zero for a zero radius or negligible gradient with convex model, and the solver stops after at most 300 iterations.", "quantifier": "for all gradients, Hessians, radii (given the linear algebra kernels)", "why_tests_cant": "Every exit of an iterative safeguarded Newton method must be covered.", "anchors": ["sqpdfo/bcdfo_solve_TR_MS.py:bcdfo_solve_TR_MS_"]}
{"id": "C43", "title": "Bound-constrained trust-region step respects the bounds", "statement": "The step returned by the bound-constrained trust-region solver satisfies its lower and upper step bounds, and the solver stops after a bounded number of iterations.", "quantifier": "for all inputs (given the linear algebra kernels)", "why_tests_cant": "Every exit of nested loops with a shrinking free set must be covered.", "anchors": ["sqpdfo/bcdfo_solve_TR_MS_bc.py:bcdfo_solve_TR_MS_bc_"]}
{"id": "C44", "title": "Composite step solver terminates and returns a step inside the bounds", "statement": "The step computation for constrained problems ends after a bounded number of active-set passes and the resulting trial point violates no bound by more than 1e-8.", "quantifier": "for all models, radii and bounds (given the kernels)", "why_tests_cant": "Termination of an active-set loop with releases.", "anchors": ["sqpdfo/sqpdfo_solve_TR_bc.py:sqpdfo_solve_TR_bc_"]}
{"id": "C45", "title": "Bounded least squares returns a feasible point in boundedly many iterations", "statement": "The bounded linear least-squares solver returns a point within its bounds after at most 2n iterations with at most 15 backtracking steps each.", "quantifier": "for all matrices, right-hand sides and bounds", "why_tests_cant": "Nested loops over all sizes.", "anchors": ["sqpdfo/blls.py:blls_"]}
{"id": "C46", "title": "One-dimensional box-constrained quadratic minimisation is exact", "statement": "The univariate minimiser returns a point of the interval with the smallest value of a*t^2 + b*t, or reports unboundedness exactly when the quadratic is unbounded below on the interval.", "quantifier": "for all coefficients and intervals (finite or infinite)", "why_tests_cant": "Case analysis over signs and infinities for all reals.", "anchors": ["sqpdfo/minq.py:_quadMin"]}
{"id": "C47", "title": "Documented status codes match the implementation", "statement": "The status codes described in the documentation of optimize (4 max iterations, 5 max simulations, 6 stop required, 8 infeasible QP, 9 unbounded QP) are those the solver returns, and the final message identifies the status unambiguously. (False: the implementation uses 5, 6, 4, 21 and 22.)", "quantifier": "for all status codes", "why_tests_cant": "Documentation is not executed by tests.", "anchors": ["sqpdfo/sqpdfo.py (docstring)", "sqpdfo/sqpdfo_values.py", "sqpdfo/sqpdfo_finish.py"]}
{"id": "C48", "title": "Initial sampling terminates", "statement": "The construction of the initial interpolation set ends after finitely many objective evaluations for every objective. (False: for a start point 0 and an objective below -1e25 it never ends; true when the start point is nonzero.)", "quantifier": "for all objectives and start points", "why_tests_cant": "Non-termination cannot be tested.", "anchors": ["sqpdfo/sqpdfo_prelim.py:sqpdfo_prelim_ (L268-417)"]}
{"id": "C49", "title": "Model degree grows monotonically up to the requested degree", "statement": "The number of interpolation points starts at n+1, never decreases, grows by at most one per pass, and never exceeds the size implied by final_degree; the randomised augmentation branch is never taken.", "quantifier": "for all executions", "why_tests_cant": "Invariant over unbounded executions.", "anchors": ["sqpdfo/sqpdfo_main.py:sqpdfo_main_", "sqpdfo/bcdfo_augment_Y.py"]}
{"id": "C50", "title": "Objective is evaluated only within the bounds", "statement": "All points at which the user's objective is evaluated satisfy the bound constraints (up to 1e-8). (Holds for the initial points and the trial points of the step solver; false for geometry-improvement points.)", "quantifier": "for all problems with bounds and all executions", "why_tests_cant": "Violations depend on the geometry of the set after many iterations.", "anchors": ["sqpdfo/sqpdfo_prelim.py", "sqpdfo/bcdfo_find_new_yj.py", "sqpdfo/bcdfo_repair_Y.py", "sqpdfo/sqpdfo_solve_TR_bc.py"]}
{"id": "C51", "title": "A failing evaluation during set improvement is handled", "statement": "If the objective fails at a geometry-improvement point the run ends with status 3. (False: the status is not checked there and an exception escapes.)", "quantifier": "for all executions in which an improvement evaluation fails", "why_tests_cant": "Requires a failure at a specific internal event.", "anchors": ["sqpdfo/sqpdfo_main.py:sqpdfo_main_ (repair loop)", "sqpdfo/sqpdfo_augmX_evalf.py"]}
{"id": "C52", "title": "Condition repair bounds the spectrum", "statement": "The conditioning repair leaves well conditioned matrices unchanged and otherwise returns a matrix whose singular values were raised to at least 1e-7 without changing the larger ones.", "quantifier": "for all matrices", "why_tests_cant": "Spectral property for all matrices.", "anchors": ["sqpdfo/sqpdfo_check_cond.py:sqpdfo_check_cond_", "sqpdfo/bcdfo_build_QR_of_Y.py"]}
{"id": "C53", "title": "Shift and scaling of the interpolation set are transparent", "statement": "The base point and scaling returned with the factorisation map the base point to the origin and all interpolation points into the closed unit ball with at least one on the sphere, and polynomial value, gradient and Hessian in the original variables are those of the scaled polynomial by the chain rule.", "quantifier": "for all sets with at least two distinct points, all dimensions", "why_tests_cant": "All sizes and reals.", "anchors": ["sqpdfo/bcdfo_build_QR_of_Y.py:bcdfo_build_QR_of_Y_", "sqpdfo/bcdfo_gradP.py", "sqpdfo/bcdfo_hessP.py", "sqpdfo/bcdfo_evalP.py"]}
{"id": "C54", "title": "Improvement points lie in the requested ball", "statement": "The replacement point proposed for an interpolation point lies within (1+eps_L)*Delta of the base point, its reported improvement is the absolute value of the maximised Lagrange model change, and nothing is proposed for the base point.", "quantifier": "for all sets, indices and radii (given the trust-region kernel's contract)", "why_tests_cant": "All sets and indices.", "anchors": ["sqpdfo/bcdfo_find_new_yj.py:bcdfo_find_new_yj_", "sqpdfo/bcdfo_solve_TR_MS.py"]}
{"id": "C55", "title": "Verbosity does not influence the result", "statement": "Two runs that differ only in the verbosity option evaluate the same points and return the same result.", "quantifier": "for all problems, options and verbosity levels", "why_tests_cant": "Ranges over all runs; the output level is usually fixed in tests.", "anchors": ["sqpdfo/sqpdfo_main.py:sqpdfo_main_", "sqpdfo/sqpdfo_options.py"]}
{"id": "C56", "title": "Problems whose constraints vanish identically are handled", "statement": "If the constraint function returns zero at all points evaluated so far, the value of the constraints used for a trial point is that of this trial point.", "quantifier": "for all constrained problems and all histories", "why_tests_cant": "Special history, all problems.", "anchors": ["sqpdfo/sqpdfo_main.py:sqpdfo_main_"]}
{"id": "C57", "title": "Only documented failures escape from an unconstrained run", "statement": "For unconstrained problems with well-formed input the iteration raises no internal index or shape error; it either returns a status or fails because a function value is not a number or an improvement point could not be evaluated.", "quantifier": "for all unconstrained problems, start points, functions and all passes of the loop", "why_tests_cant": "All histories of interpolation sets.", "anchors": ["sqpdfo/sqpdfo_main.py:sqpdfo_main_"]}
{"id": "C58", "title": "Huge constraint values are replaced by large ones", "statement": "Constraint values of 1e25 or more are replaced in the history by a value not smaller than every other recorded value.", "quantifier": "for all evaluation histories", "why_tests_cant": "All histories.", "anchors": ["sqpdfo/sqpdfo_main.py:sqpdfo_main_"]}
{"id": "C59", "title": "Exit code 0 of the bounded least-squares solver certifies optimality", "statement": "If the bounded linear least-squares solver reports success, the residual is at most 1e-11 or the norm of the projected gradient step at the returned point is at most 1e-10.", "quantifier": "for all matrices, right-hand sides and bounds", "why_tests_cant": "All sizes and reals.", "anchors": ["sqpdfo/blls.py:blls_"]}
{"id": "C60", "title": "Coordinate search of the box-constrained quadratic solver", "statement": "The coordinate search keeps the point in the box, keeps the gradient consistent with the point, never increases the objective, minimises exactly along the chosen coordinate, and looks at every coordinate in each sweep.", "quantifier": "for all symmetric matrices, boxes, start points in the box and numbers of steps", "why_tests_cant": "All sizes and step sequences.", "anchors": ["sqpdfo/minq.py:Minq.coordinateSearch"]}
{"id": "C61", "title": "Accepted trust-region steps are nearly global minimisers", "statement": "If the unconstrained trust-region solver does not report the pseudo-hard case, its step does not increase the quadratic model, no point in the ball of radius Delta has a model value lower by more than Delta^2*max(1e-12/2, eps_D*lambda), and the reported norm, model value, gradient and message are those of the step.", "quantifier": "for all symmetric Hessians, gradients of norm at least 1e-6, radii and tolerances", "why_tests_cant": "Global optimality over a continuum, for all sizes and reals.", "anchors": ["sqpdfo/bcdfo_solve_TR_MS.py:bcdfo_solve_TR_MS_"]}
{"id": "C62", "title": "Reported poisedness is the largest Lagrange value in the ball", "statement": "The second value reported by the poisedness computation is the largest distance of an interpolation point to the base point, and the first is, up to the tolerances of the trust-region solver, the largest absolute value that a Lagrange polynomial (other than that of the base point) takes in the ball of this radius around the base point.", "quantifier": "for all poised interpolation sets, all exact factorisations and all points of the ball", "why_tests_cant": "Maximum over a continuum, for all interpolation sets; a failing set needs a Lagrange polynomial that is stationary at the base point, which random sets do not give.", "anchors": ["sqpdfo/bcdfo_poisedness_Y.py:bcdfo_poisedness_Y_", "sqpdfo/bcdfo_find_new_yj.py:bcdfo_find_new_yj_"]}
{"id": "C63", "title": "The truncated CG solver stops within as many iterations as unknowns", "statement": "For a symmetric matrix and an iteration limit of at least the number n of unknowns, the truncated conjugate-gradient solver never reports that its iteration limit was reached: it returns at the latest at the test that follows its n-th iteration, and its search directions are pairwise conjugate and its residuals pairwise orthogonal.", "quantifier": "for all sizes, symmetric matrices (definite or not), right-hand sides, radii and tolerances, in exact arithmetic", "why_tests_cant": "Statement about all sizes and matrices; sampled systems stop early for other reasons.", "anchors": ["sqpdfo/sqpdfo_truncated_cg.py:sqpdfo_truncated_cg_"]}
{"id": "C64", "title": "Constraint data follow the interpolation points", "statement": "After every pass of the main loop and on every normal return, the constraint values kept for each interpolation point are exactly the values the user's constraint function returned at that point in a call that was really made, and the constraint values of the iterate are those of the first interpolation point, which is the iterate.", "quantifier": "for all constrained problems whose finite constraint values stay below 1e25 in size (NaN, failures and exceptions allowed), all results of the numerical kernels, all numbers of passes", "why_tests_cant": "Exchanges, replacements, augmentations and repairs permute three arrays in parallel; only the histories a test happens to visit are checked.", "anchors": ["sqpdfo/sqpdfo_main.py:sqpdfo_main_", "sqpdfo/sqpdfo_augmX_evalf.py:sqpdfo_augmX_evalf_", "sqpdfo/sqpdfo_swap_in_Y.py:sqpdfo_swap_in_Y_"]}
{"id": "C65", "title": "The initial interpolation set determines the linear model", "statement": "When the initial sampling completes, the stored points are the start point and, for each coordinate, the start point moved by one common positive distance (not larger than the requested radius) in that coordinate; they are pairwise different and for arbitrary function values exactly one affine model interpolates them.", "quantifier": "for all dimensions, start points, radii and functions", "why_tests_cant": "Needs all dimensions and values; a wrong coordinate or a repeated point only shows as a singular system in some runs.", "anchors": ["sqpdfo/sqpdfo_prelim.py:sqpdfo_prelim_ (L304-320)"]}
{"id": "C66", "title": "Reported data of the bound-constrained trust-region step", "statement": "The norm, the model value and the model gradient returned by the bound-constrained trust-region solver are those of the returned step, and the norm exceeds the radius by no more than max(eps_D*Delta, 1e-5).", "quantifier": "for all inputs with a symmetric matrix, all dimensions, all exits of the solver", "why_tests_cant": "The data are updated separately at nine exits of nested loops; several of them are reached only for special bounds or failing factorisations.", "anchors": ["sqpdfo/bcdfo_solve_TR_MS_bc.py:bcdfo_solve_TR_MS_bc_"]}
{"id": "C67", "title": "Length of the composite step", "statement": "The trial point of the constrained step solver is at most twice the trust-region radius away from the iterate, and the radius it returns lies between zero and the given radius.", "quantifier": "for all models, constraints, bounds, radii and numbers of active-set passes (given the kernels)", "why_tests_cant": "The radius is reduced in every pass of a loop of unbounded length; only a telescoping argument covers all passes.", "anchors": ["sqpdfo/sqpdfo_solve_TR_bc.py:sqpdfo_solve_TR_bc_ (L345-352, L526-584)"]}
{"id": "C68", "title": "Slack variables returned with the composite step", "statement": "If the iterate and the slack variables satisfy their bounds, the slack variables returned by the constrained step solver satisfy their bounds (they are not negative).", "quantifier": "for all problems with inequalities, all models, radii and numbers of active-set passes (given the kernels)", "why_tests_cant": "The slack variables are updated at two places per pass; an error shows only in runs with several passes.", "anchors": ["sqpdfo/sqpdfo_solve_TR_bc.py:sqpdfo_solve_TR_bc_ (L354-370, L563-568)"]}
{"id": "C69", "title": "Tangent step keeps the linearised constraints", "statement": "The tangent part of the composite step does not change the linearised constraints: at the trial point they have the values they have after the restoration step.", "quantifier": "for all constrained problems, all models and all numbers of active-set passes (given kernels that return tangent steps)", "why_tests_cant": "The Jacobian is modified between passes; a test with one pass cannot see it.", "anchors": ["sqpdfo/sqpdfo_solve_TR_bc.py:sqpdfo_solve_TR_bc_ (L291-317, L579-583)"]}
{"id": "C70", "title": "Violating tangent steps are shortened to the bounds", "statement": "A tangent step that violates a bound is replaced by its largest multiple that stays within all bounds.", "quantifier": "for all points within the bounds, all tangent steps, all dimensions", "why_tests_cant": "The treatment of zero components matters only at active bounds.", "anchors": ["sqpdfo/sqpdfo_solve_TR_bc.py:sqpdfo_solve_TR_bc_ (L535-560)"]}
{"id": "C71", "title": "Improvement points and poisedness are exact for linear models", "statement": "With linear models, the point proposed to replace an interpolation point lies exactly at the distance of the given radius from the base point and attains the largest absolute value of the Lagrange polynomial in that ball, the value reported for it is that maximum, and the poisedness value is exactly the largest absolute value that a Lagrange polynomial of the set attains within the radius of the set.", "quantifier": "for all dimensions, all poised sets for linear models, all radii (given the factorisation and triangular solve kernels)", "why_tests_cant": "Optimality is a statement about all points of a ball and all sets.", "anchors": ["sqpdfo/bcdfo_find_new_yj.py:bcdfo_find_new_yj_", "sqpdfo/bcdfo_poisedness_Y.py:bcdfo_poisedness_Y_", "sqpdfo/bcdfo_computeLj.py"]}
{"id": "C72", "title": "Gradients in use belong to the current interpolation set", "statement": "At the top of every pass of the main loop and on every return, the gradients of objective and constraints from which the optimality measures are computed (info.g, info.ae) are those of the models built from the current interpolation points with the values recorded for them; the base point of these models is the current iterate and the factorisation in use is that of the current points. In particular, with linear models the gradient reproduces all differences of recorded values.", "quantifier": "for all problems, start points, options, numbers of passes and results of the numerical kernels", "why_tests_cant": "The interpolation set is changed at seven places of the loop, each of which has to refresh factorisation, models and stored gradients; a stale gradient shows only as slow or false convergence.", "anchors": ["sqpdfo/sqpdfo_main.py:sqpdfo_main_ (L541-565, L1009-1068, L1130-1150, L1278-1301, L1400-1423, L1486-1490)", "sqpdfo/sqpdfo_computeHessian.py:sqpdfo_computeHessian_ (L47-49, L78-80)"]}
{"id": "C73", "title": "Error of the model gradient", "statement": "If the gradient of a function has Lipschitz constant kappa, the gradient at the base point of the interpolation model built by the code from exact values differs from the true gradient by at most p/2 * kappa * radius * poisedness, where p + 1 is the number of points, and radius and poisedness are the numbers computed by bcdfo_poisedness_Y (whose product is compared with 1e-3 in the convergence tests). In particular affine functions get exact gradients, for every user-selectable kind of model.", "quantifier": "for all dimensions, interpolation sets, functions and model kinds", "why_tests_cant": "It bounds the error for every function of a class and every set of points; the hard cases of the subproblem solver and minimum-norm models are easily missed by samples.", "anchors": ["sqpdfo/bcdfo_poisedness_Y.py:bcdfo_poisedness_Y_", "sqpdfo/bcdfo_computeP.py:bcdfo_computeP_ (L70-110)", "sqpdfo/bcdfo_gradP.py:bcdfo_gradP_", "sqpdfo/sqpdfo_main.py:sqpdfo_main_ (convergence tests)"]}
{"id": "C74", "title": "What status 0 says about the user's functions", "statement": "If a run ends with status 0 (convergence), then at the returned point the user's equality constraints hold within tol_feas, the inequality constraints agree with their squared slack variables within tol_feas, and the gradient of the Lagrangian formed with the true gradients of the user's functions and the multipliers in use is bounded componentwise by tol_grad plus n/2 * 1e-3 times its Lipschitz constant (linear models; a corresponding bound for larger sets). The true gradient need not satisfy tol_grad itself.", "quantifier": "for all problems with exact values and Lipschitz gradients, start points, options and executions", "why_tests_cant": "It relates the stopping test, which sees only models, to the user's functions for every execution; examples cannot show that no run stops at a bad point.", "anchors": ["sqpdfo/sqpdfo_main.py:sqpdfo_main_ (L256-L320)", "sqpdfo/sqpdfo_optimality.py:sqpdfo_optimality_", "sqpdfo/bcdfo_poisedness_Y.py:bcdfo_poisedness_Y_", "sqpdfo/bcdfo_computeP.py", "sqpdfo/bcdfo_gradP.py"]}
{"id": "C75", "title": "Models and Lagrange polynomials of all selectable kinds", "statement": "For each kind of model that the user can select (sub-basis, minimum Frobenius norm, minimum l2 norm, regression) and every interpolation set that is poised for it: computing the model raises no exception; with at most as many points as coefficients the model interpolates the data (and a minimum-norm model has the shortest coefficients among all interpolating ones), with at least as many points it is the least-squares fit; the Lagrange polynomials are 1 at their own point and 0 at the others, each model is their combination with the data, and the values of bcdfo_evalL are the values of these polynomials.", "quantifier": "for all dimensions, numbers of points, points, data, base points and kinds", "why_tests_cant": "Each kind has its own factorisation and its own formula in three functions, most of which the test-suite never executes; agreement has to hold for all sizes of the set, where branches for linear, intermediate and quadratic size differ.", "anchors": ["sqpdfo/bcdfo_build_QR_of_Y.py:bcdfo_build_QR_of_Y_", "sqpdfo/bcdfo_computeP.py:bcdfo_computeP_", "sqpdfo/bcdfo_computeLj.py:bcdfo_computeLj_", "sqpdfo/bcdfo_evalL.py:bcdfo_evalL_"]}
{"id": "C76", "title": "Hessian in the mode 'model' is that of the Lagrangian of the current models", "statement": "With options.hess_approx = 'model' and a kind of model with complete code, sqpdfo_computeHessian returns, for every interpolation set that is poised for that kind and with the shift used by the program, a symmetric matrix that is exactly the Hessian of the function f-model + sum of multipliers times (constraint model minus squared slack); for linear models it is zero.", "quantifier": "for all dimensions, numbers of points and constraints, points, data, multipliers and slacks", "why_tests_cant": "The code builds one model of the combined data instead of combining the models; that both agree is an identity over all data, which for minimum-norm models depends on constants being reproduced.", "anchors": ["sqpdfo/sqpdfo_computeHessian.py:sqpdfo_computeHessian_", "sqpdfo/bcdfo_hessP.py:bcdfo_hessP_", "sqpdfo/bcdfo_computeP.py:bcdfo_computeP_"]}
{"id": "C77", "title": "BFGS mode: definiteness for ever, secant pairs that belong together", "statement": "With options.hess_approx = 'bfgs': (a) after any number of calls of sqpdfo_computeHessian, starting from the identity, the matrix is symmetric positive definite; (b) after each call without restart and with a nonzero step, the matrix maps the step to the change of the gradient of the Lagrangian along that step, or, without enough curvature, to Powell's damped change; after a zero step it is the identity and the status is 30; (c) the step and the change of the gradient used in an update belong to the same pair of points.", "quantifier": "for all sequences of calls and all data", "why_tests_cant": "An invariant over unboundedly many updates with arbitrary gradients; the mismatch in (c) shows only at rejected steps, where nothing fails visibly.", "anchors": ["sqpdfo/sqpdfo_computeHessian.py:sqpdfo_computeHessian_", "sqpdfo/sqpdfo_bfgs_update.py:sqpdfo_bfgs_update_", "sqpdfo/sqpdfo_main.py:sqpdfo_main_"]}
{"id": "C78", "title": "Factorisation updates of the box-constrained quadratic solver are exact or report a direction", "statement": "Minq.ldlrk1, Minq.ldlup and Minq.ldldown, given a unit lower triangular matrix and a positive diagonal, return unit lower triangular and positive diagonal factors of, respectively, the matrix plus alpha*u*u', the matrix with unit row and column j replaced by g, and the matrix with row and column j replaced by those of the identity; or (alpha < 0, or ldlup) they return the old factors and a nonzero direction in which the new matrix has curvature at most neps.", "quantifier": "for all dimensions, factors, indices and vectors", "why_tests_cant": "Which entries become nonzero during an update depends on the sparsity pattern; the property is about all patterns and sizes.", "anchors": ["sqpdfo/minq.py:Minq.ldlrk1", "sqpdfo/minq.py:Minq.ldlup", "sqpdfo/minq.py:Minq.ldldown"]}
{"id": "C79", "title": "minq returns feasible points of decreasing value, and minimisers with info 0", "statement": "minq(c, G, xlow, xhigh, x0), if it returns, returns a point in the box; for a positive semidefinite matrix its (regularised) value is at most that of the start put into the box, and info = 0 means that the point minimises the regularised quadratic in the box. info is 0, 1 or 99. For indefinite matrices a local minimiser is found.", "quantifier": "for all dimensions, matrices, boxes with finite or infinite ends, starts and numbers of iterations", "why_tests_cant": "Alternating coordinate and subspace searches with several stopping rules; whether each rule certifies optimality is a statement about all runs, and the failures need special activity patterns.", "anchors": ["sqpdfo/minq.py:minq", "sqpdfo/minq.py:Minq.search", "sqpdfo/minq.py:Minq.subspace", "sqpdfo/minq.py:Minq._Info"]}
{"id": "C80", "title": "Accepted options never make the call raise later", "statement": "If the options pass the validation of optimize, no later read of an option (initial printing, initial optimality measures, Hessian) raises an exception.", "quantifier": "for all options objects, verbosities, numbers of bounds and constraints", "why_tests_cant": "The reads after the validation depend on combinations of options (verbosity, limits, Hessian mode) and on the kind of problem; tests run few of the combinations.", "anchors": ["sqpdfo/sqpdfo_options.py:sqpdfo_options_", "sqpdfo/sqpdfo_prelim.py:sqpdfo_prelim_", "sqpdfo/sqpdfo_computeHessian.py:sqpdfo_computeHessian_"]}
{"id": "C81", "title": "Whole calls of optimize: how they end and what they return", "statement": "A call of optimize with arguments of the right types returns status 1 for a missing or illegal argument and status 2 for crossed or too narrow bounds, both without evaluating; status 3 from the initial sampling after a failed evaluation; otherwise one of 0, 3, 5, 6, 15, 30 with the exact number of evaluations and an evaluated point and its value. Statuses 0, 5, 6 mean what the user's tolerances and limits say. With proper bounds, functions in range, usable options and a finite limit the call ends, and the only exceptions are those of the main loop. The output channel, and the verbosity within 0-3 or 4-6, have no influence on the result.", "quantifier": "for all arguments, options, user functions, process histories, kernel results and numbers of iterations", "why_tests_cant": "It links the argument checks, the options, the sampling and the main loop; a test covers single combinations and cannot show that the data handed over always meet what the main loop relies on.", "anchors": ["sqpdfo/sqpdfo.py:sqpdfo_", "sqpdfo/sqpdfo_prelim.py:sqpdfo_prelim_", "sqpdfo/sqpdfo_main.py:sqpdfo_main_"]}
{"id": "C82", "title": "Slacks follow accepted steps only and never get worse by the move away from zero", "statement": "Slack variables change only when the trial point becomes the iterate. Then they are the trial slacks, except that a slack which is zero although its inequality has a value above 0.01 at the new iterate becomes the square root of this value. This never increases a component of the constraint residual.", "quantifier": "for all problems, runs, passes of the main loop and kernel results", "why_tests_cant": "The rule depends on values of constraints and slacks that occur in the course of a run; a test would see one trajectory.", "anchors": ["sqpdfo/sqpdfo_main.py:sqpdfo_main_"]}
{"id": "C83", "title": "The exact update of the radius", "statement": "After a step that leaves the interpolation set as it is, the radius is k times the smaller of radius and step length, k being the interpolated point (0.9 of the predicted change) cut to [0.01, 0.5]; after a rejected step that changes the set it is halved unless at most 1e-5; after a successful step it is at most max(5 radius, 2 step length), max(2 radius, 2 step length) for radii from 5 on, and max(radius, 2 step length) and 1e5 if the boundary was not reached.", "quantifier": "for all problems, runs, passes of the main loop and kernel results", "why_tests_cant": "The formula has degenerate cases (zero denominator, signs) which single runs do not meet.", "anchors": ["sqpdfo/sqpdfo_main.py:sqpdfo_main_"]}
{"id": "C84", "title": "Which point of the interpolation set is replaced", "statement": "As long as the set may grow, the trial point is added and nothing is lost. In a full set, an accepted point replaces a point with Lagrange value above 1e-10 that is farthest from the new iterate, or else a far or close point; a rejected one replaces a far or close point other than the iterate, chosen by distance and Lagrange value, provided that the model is not known to be poised or the radius is small. If the set is unchanged although replacement was allowed, no candidate passes the thresholds. All other points stay.", "quantifier": "for all problems, runs, passes of the main loop, interpolation sets and kernel results", "why_tests_cant": "The choice is a maximum over all candidates for arbitrary sets and Lagrange values; tests see a few sets.", "anchors": ["sqpdfo/sqpdfo_main.py:sqpdfo_main_", "sqpdfo/bcdfo_include_in_Y.py:bcdfo_include_in_Y_"]}
{"id": "C85", "title": "The predicted reduction of the constraint violation", "statement": "rpred, the predicted reduction returned with the composite step, is the reduction of the norm of the linearised constraints (variables held at a bound counting as further constraints) by the restoration step; it never exceeds the true reduction of the norm of the linearised constraints, and it is not negative.", "quantifier": "for all constrained problems, iterates within the bounds, models and radii (given the kernels)", "why_tests_cant": "A negative value needs a bound closer than 1e-5 to the iterate and a badly scaled constraint; the code only prints a message.", "anchors": ["sqpdfo/sqpdfo_solve_TR_bc.py:sqpdfo_solve_TR_bc_ (L165-302)"]}
{"id": "C86", "title": "A zero step ends the active-set loop only at a solution", "statement": "In the constrained step solver, a pass with a zero step ends the loop only if no bound is fixed or the multipliers of the fixed bounds have the right sign; otherwise a bound is released and the loop goes on with the smaller active set.", "quantifier": "for all constrained problems, active sets and multipliers", "why_tests_cant": "Needs runs in which the wrong bound is fixed first; the returned step is merely worse than necessary.", "anchors": ["sqpdfo/sqpdfo_solve_TR_bc.py:sqpdfo_solve_TR_bc_ (L424-509)"]}
{"id": "C87", "title": "The hard case of the trust-region solver", "statement": "If the matrix is indefinite or singular and the gradient is orthogonal, up to rounding, to the eigenvectors of the smallest eigenvalue, and the step over the other eigenvectors is shorter than the radius, then bcdfo_solve_TR_MS takes its hard-case branch; the step it forms has length equal to the radius and minimises the quadratic over the ball, and the reported multiplier, norm, value and gradient are those of that step.", "quantifier": "for all matrices, gradients and radii, given an orthonormal eigenvector basis and exact square roots", "why_tests_cant": "The hard case has measure zero; random tests never produce it, and a step with the wrong sign or length is still inside the ball.", "anchors": ["sqpdfo/bcdfo_solve_TR_MS.py:bcdfo_solve_TR_MS_ (L274-339)"]}
{"id": "C88", "title": "Bounded least squares: the residual never gets worse", "statement": "In each iteration of blls_ the Cauchy point satisfies the Armijo condition and the point computed from the free variables minimises the residual over the face of the active bounds; the point returned by blls_ has no larger residual than the start point, the projected unconstrained solution.", "quantifier": "for all matrices, right-hand sides and bounds, given exact least-squares solutions and Euclidean norms", "why_tests_cant": "Wrong blocking variables are only added when the backtracking fails and the subspace solution leaves the box; the code still reports success.", "anchors": ["sqpdfo/blls.py:blls_ (L140-403)"]}
{"id": "C89", "title": "First-order optimality of the bound-constrained step", "statement": "If the bound-constrained trust-region solver returns 'boundary solution' with a step shorter than the radius, every component of the step is within 1e-5 of a bound or the model gradient is at most 1e-5 there. If it returns '(partly) interior solution', the components that are not at a bound are stationary for the model plus lambda/2 times the squared length of the last move, where lambda is nonnegative and negligible unless this move uses up the remaining radius.", "quantifier": "for all models, bounds, radii, dimensions, at the exits with these messages", "why_tests_cant": "The free set is recomputed in every pass by tests on the bounds, not on the distance from them; a variable fixed by mistake needs a special geometry.", "anchors": ["sqpdfo/bcdfo_solve_TR_MS_bc.py:bcdfo_solve_TR_MS_bc_ (L117-473)"]}
{"id": "C90", "title": "Distant bounds do not matter", "statement": "If all bounds are further away than (1+eps_D)*Delta + 1e-5, the bound-constrained solver returns the step of the unconstrained one. A step returned as '(partly) interior' that keeps away from all bounds is a global minimiser of the model in the trust region, up to Delta^2*max(1e-12/2, eps_D*lambda).", "quantifier": "for all symmetric models, bounds, radii, dimensions, no pseudo-hard case", "why_tests_cant": "Global optimality over a continuum.", "anchors": ["sqpdfo/bcdfo_solve_TR_MS_bc.py:bcdfo_solve_TR_MS_bc_ (L117-473)"]}
{"id": "C91", "title": "The bound-constrained step does not increase the model", "statement": "The model value at the step returned by the bound-constrained trust-region solver is not larger than at zero.", "quantifier": "for all symmetric models, bounds that allow the zero step, radii, dimensions", "why_tests_cant": "An increase needs a bound closer than 1e-5 and a steep model.", "anchors": ["sqpdfo/bcdfo_solve_TR_MS_bc.py:bcdfo_solve_TR_MS_bc_ (L117-473)"]}
{"id": "C92", "title": "Convergence history file", "statement": "With verbosity 0 a call leaves convhist.m alone; with a positive verbosity it writes a complete file with exactly one line per iteration, numbered 1, 2, ..., info.niter, in which the numbers of evaluations do not decrease and end with those of the returned info.", "quantifier": "for all arguments, options, user functions and kernel results, every end of the call", "why_tests_cant": "The lines are written at eight places of the main loop; a missing or repeated line depends on which branch ends the run.", "anchors": ["sqpdfo/sqpdfo_iter_printout.py:sqpdfo_iter_printout_ (L6-30)", "sqpdfo/sqpdfo.py:sqpdfo_ (L212, L268-289, L323-327)", "sqpdfo/sqpdfo_main.py:sqpdfo_main_ (L221, L233, L322, L340, L461, L624, L678, L1459)"]}
{"id": "C93", "title": "Search directions of the bound-constrained quadratic solver", "statement": "Every subspace search direction of minq is zero at the variables that are not free and has a negative product with the gradient unless the gradient vanishes at all free variables; a subspace step changes no variable that is not free and frees none.", "quantifier": "for all dimensions, Hessians (also indefinite), gradients and all sequences of free sets visited before, whatever removals and additions the factors went through", "why_tests_cant": "The factors are updated from one free set to the next; a variable left over in them shows only after particular sequences of activations.", "anchors": ["sqpdfo/minq.py:Minq.subspace (L465-L568)", "sqpdfo/minq.py:Minq.ldlrk1 (L224), ldlup (L278), ldldown (L363)"]}
{"id": "C94", "title": "Start point for infinite and NaN data", "statement": "For bounds and start values that are arbitrary floating-point numbers, infinities or NaN, the set-up rejects the bounds exactly if a lower bound exceeds its upper bound; otherwise the initial radius is the largest number at most 1 that fits twice between any two different finite bounds, variables with equal finite bounds are fixed, and the start value of any other variable is a number exactly if no bound is infinite on the wrong side and the given value is a number or an infinity behind a finite bound, in which case it keeps the radius away from all finite bounds.", "quantifier": "for all numbers of variables and all combinations of numbers, infinities and NaN in bounds and start point", "why_tests_cant": "There are 64 kinds of variables, and the radius used for one variable depends on those before it.", "anchors": ["sqpdfo/sqpdfo.py:sqpdfo_ (L110-L119)", "sqpdfo/sqpdfo_prelim.py:sqpdfo_prelim_ (L176-L211)"]}
{"id": "C95", "title": "Start points given as integers", "statement": "A start point given as a list of integers leads to the same start point, within the bounds, as the same numbers given as floating-point numbers.", "quantifier": "for all bounds and all integer start points", "why_tests_cant": "Only an infinity of bounds and start points shows when writing a moved start value into an integer array changes it.", "anchors": ["sqpdfo/sqpdfo.py:sqpdfo_ (L110-L119)", "sqpdfo/sqpdfo_prelim.py:sqpdfo_prelim_ (L176-L211)"]}
{"id": "C96", "title": "Quality of the tangent step", "statement": "The tangent step of the trust-region solver for constrained problems stays in its region and reaches the border if it is reported active, its products with the gradients of the constraints and active bounds are at most 1e-15 times its length, and it does not increase the model; if the gradients have no singular value of at most 1e-15 and the step is not reported active, the gradient of the model along every tangent direction is at most the precision asked for, and if the model is convex along these directions no tangent vector is better by more than the precision times its distance.", "quantifier": "for all dimensions, numbers of rows, model matrices (symmetric), gradients, radii and precisions", "why_tests_cant": "The statement compares the step with all vectors of the null space, and the limit on the iterations must never be reached in any dimension.", "anchors": ["sqpdfo/sqpdfo_solve_TR_bc.py:sqpdfo_solve_TR_bc_ (L305-L324)", "sqpdfo/runtime.py:null_ (L463-L471)", "sqpdfo/sqpdfo_truncated_cg.py:sqpdfo_truncated_cg_"]}
{"id": "C97", "title": "When the interpolation set counts as well poised; precision and radius after its improvement", "statement": "At the first pass the set counts as well poised; it no longer does after a pass that makes the trial point the iterate or adds it to the set; any other pass without improvement of the set leaves the flag, and one with improvement sets it exactly if no point had to be replaced. The precision asked of the set changes only with an improvement, to 1e-5 or, after a step without predicted reduction, to a tenth of the radius (infeasible iterate) or of itself, and the radius is then cut or raised to it as documented. In runs without improvement the set counts as well poised exactly until iterate or size of the set first change.", "quantifier": "for all problems, runs, passes of the main loop, interpolation sets and kernel results", "why_tests_cant": "The flag is set and cleared at eight places of the main loop; which one applies last depends on the whole history of a run.", "anchors": ["sqpdfo/sqpdfo_main.py:sqpdfo_main_ (L354-L365, L439-L447, L487, L521, L1005, L1127, L1167, L1257, L1380)", "sqpdfo/sqpdfo_prelim.py:sqpdfo_prelim_ (L341)"]}
{"id": "C98", "title": "The history of a run only grows", "statement": "Along a run the evaluated points are appended to the history in the order of the calls, with one call of each user function per point, and what was recorded earlier - points, objective values, constraint values - is never changed afterwards; the interpolation set uses the recorded values.", "quantifier": "for all problems, runs, and all pairs of moments of a run, including failing evaluations", "why_tests_cant": "Every earlier entry has to be compared with its value at every later moment of unboundedly long runs.", "anchors": ["sqpdfo/sqpdfo_augmX_evalf.py:sqpdfo_augmX_evalf_ (L71-L94, L164-L179)", "sqpdfo/sqpdfo_main.py:sqpdfo_main_ (L491-L533, L769-L792)"]}
{"id": "C99", "title": "The result depends on the answers to the calls only", "statement": "If the user functions of two problems give the same answers to the calls made in a run (for deterministic functions: have the same values at the evaluated points), then the runs and their results are the same. In particular the result does not depend on the objective at points that were not evaluated.", "quantifier": "for all pairs of user functions, including random and failing ones, all arguments, options and kernels", "why_tests_cant": "Quantifies over pairs of problems that agree only at the points of a run.", "anchors": ["sqpdfo/sqpdfo_func.py:sqpdfo_func_", "sqpdfo/sqpdfo_prelim.py:sqpdfo_prelim_ (L266-L422)", "sqpdfo/sqpdfo_main.py:sqpdfo_main_", "sqpdfo/sqpdfo.py:sqpdfo_"]}
{"id": "C100", "title": "The returned point is not worse than the start point", "statement": "The point returned by optimize is the start point (moved into the bounds if necessary) or a better one: without constraints one with a smaller objective value, with constraints one that is not worse in both the objective value and the violation of the constraints.", "quantifier": "for all problems, start points, options and runs, at every moment of the run and for every status", "why_tests_cant": "The statement compares the end of arbitrarily long runs, with rejected steps, improvements of the interpolation set and failing evaluations in any order, with their start.", "anchors": ["sqpdfo/sqpdfo_main.py:sqpdfo_main_ (L648-L668, L731-L750, L871-L1068)", "sqpdfo/sqpdfo_find_smallf.py:sqpdfo_find_smallf_", "sqpdfo/sqpdfo.py:sqpdfo_ (L275-L377)"]}
{"id": "C101", "title": "A constant added to the objective does not change the run", "statement": "Adding a constant to the objective does not change what optimize does: it evaluates the same points in the same order, takes the same decisions, ends with the same status or exception and returns the same point; all objective values it records and returns are larger by the constant. This holds as long as the objective values, with and without the constant, do not exceed 1e25 in absolute value (larger values are cut off).", "quantifier": "for all problems, constants, start points, options, kernel results and runs", "why_tests_cant": "The statement relates two runs of arbitrary length, step by step; every comparison of function values in the code (choice of the best point, reference values, actual reduction, interpolation of the radius) must use differences only.", "anchors": ["sqpdfo/sqpdfo_main.py:sqpdfo_main_ (L648-L1490)", "sqpdfo/sqpdfo_find_smallf.py:sqpdfo_find_smallf_", "sqpdfo/sqpdfo_augmX_evalf.py:sqpdfo_augmX_evalf_", "sqpdfo/sqpdfo_prelim.py:sqpdfo_prelim_ (L266-L422)"]}
{"id": "C102", "title": "A constant added to the values does not change gradients and Hessians of the models", "statement": "If a constant is added to all values at the interpolation points, the model (sub-basis, minimum-norm or regression; shifted coordinates as used by the program) of the new values is everywhere the old model plus the constant, with the same gradients and Hessian. Together with C101: the main loop with the models of the code runs in the same way, with the same gradients, for an objective and for the objective plus a constant.", "quantifier": "for all dimensions, numbers of points, poised sets, values, constants and evaluation points; for all runs of the loop", "why_tests_cant": "Exact equality of polynomials for all sets and values; floating-point tests see rounding errors of the size of the constant. For minimum-norm models it depends on the base point being an interpolation point (the unshifted version is false).", "anchors": ["sqpdfo/bcdfo_computeP.py:bcdfo_computeP_", "sqpdfo/bcdfo_build_QR_of_Y.py:bcdfo_build_QR_of_Y_ (L84-L193)", "sqpdfo/bcdfo_gradP.py:bcdfo_gradP_", "sqpdfo/bcdfo_hessP.py:bcdfo_hessP_", "sqpdfo/sqpdfo_main.py:sqpdfo_main_ (L540-L558)"]}
{"id": "C103", "title": "Correction of ill-conditioned interpolation systems", "statement": "The matrix of the interpolation system is left unchanged if its condition number is at most kappa_ill; otherwise it is replaced by one that stretches every vector at least by the tolerance _del and differs from it by at most _del. The tolerance always lies in [1e-10, 0.1]. Hence every set whose points do not all coincide gets a model (no singular system), the sum of squared residuals at the points is at most the sum of squares of the data, and either the model is the uncorrected one of a poised set or its coefficients are bounded by |f|/_del. Corrected models need not interpolate; if all points coincide an exception is raised.", "quantifier": "for all dimensions, numbers of points and kinds of models within their ranges, all points, values, radii and gradients", "why_tests_cant": "Nearly singular sets have measure zero and appear only in special histories; the guarantees hold for all matrices and use the exact singular value decomposition.", "anchors": ["sqpdfo/bcdfo_build_QR_of_Y.py:bcdfo_build_QR_of_Y_ (L60-L122)", "sqpdfo/bcdfo_computeP.py:bcdfo_computeP_", "sqpdfo/runtime.py:cond_ (L267-L279)"]}
{"id": "C104", "title": "With linear models the interpolation sets of a run stay poised", "statement": "With final_degree = linear every interpolation set of a run (at the top of each pass and at the end) has n + 1 points that determine the linear model uniquely for arbitrary values, and the interpolation system of the code is regular. Consequences: on problems with affine objective and constraints the gradients used by every pass are the true ones, and a run that ends with status 0 through the first convergence test has small true residuals without any assumption on its final set. With larger degrees the claim is false: the first trial point may coincide with a sampling point, and is added to the set nevertheless.", "quantifier": "for all dimensions, user functions, start points, options, tolerances, trial points and numbers of passes", "why_tests_cant": "Induction over runs of any length with arbitrary trial points; degenerate sets have measure zero, and a nearly degenerate set is not distinguishable from rounding errors in a test.", "anchors": ["sqpdfo/sqpdfo_main.py:sqpdfo_main_ (L286-L639, L935-L1470)", "sqpdfo/bcdfo_repair_Y.py:bcdfo_repair_Y_", "sqpdfo/bcdfo_include_in_Y.py:bcdfo_include_in_Y_", "sqpdfo/bcdfo_find_new_yj.py:bcdfo_find_new_yj_", "sqpdfo/bcdfo_augment_Y.py:bcdfo_augment_Y_"]}
{"id": "C105", "title": "concatenate_ puts blocks one after the other and ignores empty ones", "statement": "concatenate_ of a list of arrays ignores empty arrays. Along axis 0 the entries of the result, read row by row, are those of the blocks in order; there is a result exactly if all non-empty blocks have the same width. Along axis 1 one-dimensional arrays are appended, and two-dimensional blocks with the same number of rows are put side by side; mixing the two raises. If all blocks are empty the result is the one-dimensional empty array (widths of empty blocks are lost).", "quantifier": "for all lists of one- and two-dimensional arrays of all shapes", "why_tests_cant": "The loop deletes from a list while the caller keeps its own; correctness for any number and position of empty blocks needs an induction over the list. 62 calls in the code depend on it.", "anchors": ["sqpdfo/runtime.py:concatenate_ (L381-L410)", "sqpdfo/runtime.py:isempty_ (L106-L115)"]}
{"id": "C106", "title": "find_, max_ and min_ give the right positions", "statement": "find_ returns the strictly increasing positions of the true entries; with a count n it returns the first n, and raises exactly if there is a true entry but fewer than n (MATLAB returns those that exist). max_ and min_ with two results return an extreme number of the array, ignoring NaN, and the first position that carries it if the value is not -inf (max_) or inf (min_); they raise exactly if all entries are NaN. The selection of best points and of far and close points in the model of the main loop are these functions.", "quantifier": "for all arrays of booleans, numbers, infinities and NaN of any length", "why_tests_cant": "All lengths and all positions of NaN, infinities and ties; the wrong position for [nan, -inf] appears only in a corner case.", "anchors": ["sqpdfo/runtime.py:find_ (L38-L66)", "sqpdfo/runtime.py:max_ (L131-L157)", "sqpdfo/runtime.py:min_ (L159-L186)"]}
{"id": "C107", "title": "What status 0 certifies after an improvement of the set", "statement": "A run with linear models that returns with status 0, through the first or the second convergence test of a pass, returns a point at which the true gradient of the Lagrangian is at most 100 tol_grad + (n/2+1) * 1e-3 * L (L: Lipschitz constant of its gradient) and the constraints hold within 100 tol_feas. The result does not depend on the option verbose.", "quantifier": "for all problems with Lipschitz gradients, dimensions, starting points, options and all runs of any length", "why_tests_cant": "The second test measures the set after a repair, before the base point is exchanged; the error has to be carried through the exchange for every set and every smooth function. A test cannot compare with the unknown true gradient of all functions.", "anchors": ["sqpdfo/sqpdfo_main.py:main loop (L281-L625)", "sqpdfo/bcdfo_repair_Y.py:bcdfo_repair_Y_ (L225-L277)", "sqpdfo/bcdfo_poisedness_Y.py:bcdfo_poisedness_Y_"]}
{"id": "C108", "title": "The returned multipliers belong to the returned point and derivatives", "statement": "The multipliers lm returned by sqpdfo_ are those that sqpdfo_compute_multiplier_ computes from the returned point, the returned derivatives info.g and info.ae, the slacks and the bounds near the point. The step computation is always called with the multipliers of the current iterate and the current models.", "quantifier": "for all problems, options, kernels, step computations and all runs of any length", "why_tests_cant": "lm is overwritten at six places and the derivatives at five; whether they match depends on the path through the last two passes and on the exit taken.", "anchors": ["sqpdfo/sqpdfo_main.py:main loop (L249-L257, L571-L582, L696, L1049-L1068, L1465-L1490)", "sqpdfo/sqpdfo_solve_TR_bc.py:sqpdfo_solve_TR_bc_ (L40, L442)", "sqpdfo/sqpdfo_computeHessian.py:sqpdfo_computeHessian_ (L47-L49, L78-L80)"]}
{"id": "C109", "title": "Larger limits continue the same run and never return a worse point", "statement": "Two calls of optimize differ only in options.miter and options.msimul, which are larger (finite) in the second call. If the first call ends with a status other than 5 or 6, the second call returns the same result. If it stops at a limit, the second call makes exactly the same passes and goes on from there: its history (points, values, calls of the user's functions) begins with the history of the first call, and the point returned by the first call is the iterate of the second call at that moment. The second call never returns a worse point.", "quantifier": "all arguments of the right types, user functions, options and limits, all results of the numerical kernels (the same in the common passes), all numbers of passes", "why_tests_cant": "A test compares two runs of one problem with two limits; the claim is about every problem, every pair of limits and every state in which a limit can be reached.", "anchors": ["sqpdfo/sqpdfo_main.py:212-237", "sqpdfo/sqpdfo_options.py:81-97", "sqpdfo/sqpdfo.py:275-345"]}
{"id": "C110", "title": "No point is evaluated twice in a call", "statement": "Function evaluations are the expensive resource of a derivative-free method, and the problem functions are deterministic. In a call of optimize no point is evaluated twice: the sampling evaluates pairwise different points, an interpolation set never contains a point twice, and the objective and the constraints are not evaluated at a trial point that has been evaluated before; if the step computation returns the iterate itself, the functions are not called again.", "quantifier": "all start points, radii, user functions, options and all results of the numerical kernels, all numbers of passes", "why_tests_cant": "A test counts the evaluations of some runs; that no run repeats a point depends on the geometry of every set and on every step that the solver can return.", "anchors": ["sqpdfo/sqpdfo_prelim.py:268-417", "sqpdfo/sqpdfo_main.py:697-780", "sqpdfo/sqpdfo_augmX_evalf.py:56-187"]}
{"id": "C111", "title": "Without constraints the predicted decreases of the steps that are taken are paid for by the objective", "statement": "In a call of optimize without constraints, every step that makes the trial point the iterate has a positive predicted decrease, and 1e-4 times the sum of the predicted decreases of these steps is at most the decrease of the objective from the start point to the current point. So with an objective bounded below by low at most 1e4*(f(x0)-low)/eps steps are taken whose predicted decrease is at least eps, and in a run without limits the predicted decreases of the steps taken tend to 0.", "quantifier": "all start points, radii, objectives (also non-deterministic ones), options and all results of the numerical kernels, all numbers of passes, runs without end", "why_tests_cant": "A test observes finitely many steps of some runs; the bound on the number of steps needs the sum over every run, and a run without end cannot be executed.", "anchors": ["sqpdfo/sqpdfo_main.py:648-663", "sqpdfo/sqpdfo_main.py:845-1068", "sqpdfo/sqpdfo_main.py:1080-1470", "sqpdfo/bcdfo_include_in_Y.py:115-150"]}
{"id": "C112", "title": "The steps decrease the model at least as much as steepest descent", "statement": "Let a be the length of the gradient of the model, r the trust-region radius and beta a bound of the curvature of the model along the gradient. Then a/2*min(r, a/beta) is the decrease that steepest descent within the region guarantees. The truncated conjugate gradient solver gives at least this decrease whenever the gradient is longer than its tolerance; the tangent step of constrained problems gives it for every tangent direction of unit length with the gradient component along it in place of a; the More-Sorensen solver gives it for every gradient of length at least 1e-6, with radius (1-eps_D)*r and curvature bound beta+1e-12 (in the hard case with r and beta, up to 1e-15), and so does the trial step of an unconstrained problem whose bounds are further away than the radius, outside the hard case. For shorter gradients the More-Sorensen solver returns the zero step.", "quantifier": "all dimensions, symmetric model matrices (also indefinite ones), gradients, radii, tolerances, iteration limits of at least 1, constraint rows with their singular value decomposition", "why_tests_cant": "A test compares the decrease for some models; the bound on which convergence rests must hold for every matrix, also indefinite ones, and for whatever exit the solver takes.", "anchors": ["sqpdfo/sqpdfo_truncated_cg.py:17-182", "sqpdfo/bcdfo_solve_TR_MS.py:50-330", "sqpdfo/sqpdfo_solve_TR_bc.py:67-87", "sqpdfo/sqpdfo_solve_TR_bc.py:306-324"]}
{"id": "C113", "title": "The number of passes of an unconstrained run is bounded as long as its models are good", "statement": "Consider a call of optimize without constraints in which, for N passes, no improvement of the interpolation set is needed, the radius is above 1e-5, the predicted decreases are at least eps > 0, steps are at most 5/2 times as long as the radius, every trial point can enter the interpolation set, and no recorded value is below low. Then N is at most 4*S + L, where S is the number of steps taken and 1e5*Delta <= 2^L, and hence at most 4e4*(f(x0)-low)/eps + L. If the steps have the decrease of steepest descent (C112) with gradients of length at least tol and curvature bound B, this holds with eps = tol/2*min((1-1e-7)*1e-5, tol/B): so within that many passes the gradient falls below tol, the radius falls to 1e-5, the call ends, or another of these conditions fails.", "quantifier": "all start points, radii, objectives bounded below, tolerances, curvature bounds and results of the numerical kernels with these properties, all numbers of passes", "why_tests_cant": "A test observes the number of passes of some runs; the bound is about every objective and every sequence of accepted and rejected steps.", "anchors": ["sqpdfo/sqpdfo_main.py:212-310", "sqpdfo/sqpdfo_main.py:845-1068", "sqpdfo/sqpdfo_main.py:1080-1470"]}
{"id": "C114", "title": "The predicted decreases of a constrained run are bounded by the start values", "statement": "Consider a call of optimize with constraints (equalities, or inequalities with slacks) and a prefix of its passes in which no improvement of the interpolation set takes place; let all recorded objective values be in [low, 1e25). Let c(x) be the residual of the constraints (with the slacks) and sigma the penalty parameter. Then 1e-4 times the sum of pred/sigma over the successful steps, plus (f(x)-low)/sigma + |c(x)| at the current iterate, is at most f(x0)-low+|c(x0)|, and every summand is positive. So no iterate has a residual above f(x0)-low+|c(x0)|; at most 1e4*sigma*(f(x0)-low+|c(x0)|)/eps successful steps have a predicted decrease of at least eps; in a run without end pred/sigma tends to 0 along the successful steps; and, without slacks and under the conditions of C113 on the models, there are at most 4e4*sigma*(f(x0)-low+|c(x0)|)/eps + L passes with predicted decreases of at least eps.", "quantifier": "all constrained problems with finite constraint values, start points, radii, norms that do not decrease with the sizes of the entries, results of the numerical kernels, numbers of passes, histories of the penalty parameter", "why_tests_cant": "The penalty parameter, the memorised merit value and the slacks change in many branches of the loop; a test follows some of them, the bound is about every sequence of accepted and rejected steps and penalty updates.", "anchors": ["sqpdfo/sqpdfo_main.py:640-760", "sqpdfo/sqpdfo_main.py:845-1068", "sqpdfo/sqpdfo_main.py:1080-1470"]}
{"id": "C115", "title": "Steps whose decrease is not overestimated are never rejected", "statement": "Consider a run of optimize in which, in every pass, the objective and the residual of the constraints fall by at least the predicted amounts (-qcost, rpred), the trial point can enter the interpolation set, and the recorded values are below the limit 1e25. Then no step is rejected: every trial point with a positive predicted decrease becomes the iterate, the merit function falls by at least the predicted amount, the radius is not reduced by the step, and a pass without predicted decrease leaves iterate, set and radius as they are. In particular this holds for an affine objective without constraints, linear models and Hessian matrices without negative curvature (also with the models and Lagrange polynomials as the code computes them): the gradient used in each pass is exact, and the objective value at the iterate plus the sum of the predicted decreases of all steps is at most the value at the start point. With a matrix of negative curvature a step along which an affine objective falls can be rejected.", "quantifier": "all problems, start points, radii, numbers of variables and passes, Hessian matrices and trial points (for the affine part: trial points with positive distance to the set)", "why_tests_cant": "The claim covers every number of passes, every trial point and every matrix without negative curvature, with set improvements in between; a test sees one sequence of steps.", "anchors": ["sqpdfo/sqpdfo_main.py:640-760", "sqpdfo/sqpdfo_main.py:845-1068", "sqpdfo/bcdfo_include_in_Y.py:100-150", "sqpdfo/bcdfo_computeP.py:40-120"]}
{"id": "C116", "title": "The order of the equality constraints does not matter", "statement": "If the constraint function returns the values of the equality constraints in another order, optimize does the same: it evaluates the same points in the same order, takes the same decisions with the same radii, penalty parameters and slacks, ends with the same status or exception and returns the same point; the constraint values it records are the same in the other order, and so are the rows of the gradients of the constraints. (Values of inequality constraints, which carry slacks and come last, stay in place; the kernels are exact, so that they do not depend on the order.)", "quantifier": "for all problems, numbers of constraints, permutations, start points, options, kernel results and runs", "why_tests_cant": "The statement relates two runs of arbitrary length for every permutation; each use of the constraint values (limits for huge values, norm of the residual, best point of the set, slacks, stored columns) must treat the constraints alike.", "anchors": ["sqpdfo/sqpdfo_main.py:sqpdfo_main_ (L140-L1490)", "sqpdfo/sqpdfo_augmX_evalf.py:sqpdfo_augmX_evalf_", "sqpdfo/sqpdfo_find_smallf.py:sqpdfo_find_smallf_", "sqpdfo/sqpdfo_prelim.py:sqpdfo_prelim_ (L266-L480)"]}
{"id": "C117", "title": "norm_ gives the norm of a vector whatever its shape", "statement": "norm_(a) of an array of shape (n,), (n,1) or (1,n) is the Euclidean length of its entries and norm_(a, inf) is the largest absolute value of its entries, 0 for empty arrays; both depend on the entries only, not on the shape. For a matrix with several rows and columns norm_(a) is the largest factor by which the matrix lengthens a vector, norm_(a, inf) the largest sum of absolute values in a row and norm_(a, 'fro') the length of all entries. The only error is the order 'fro' for a one-dimensional array that is not empty.", "quantifier": "for all arrays of one or two dimensions, of all sizes and contents, and all three orders in use", "why_tests_cant": "The arrays are of unbounded size; numpy itself gives different values for rows and columns (the order inf of a row is the sum), and the shapes vary between the calls, so that a wrong branch shows only for some shapes, sizes (one variable) or orders.", "anchors": ["sqpdfo/runtime.py:norm_", "sqpdfo/runtime.py:isvector_or_scalar_", "sqpdfo/runtime.py:isempty_"]}
{"id": "C118", "title": "Moving the variables by a constant vector moves the run", "statement": "If start point, bounds and functions of a problem are moved by a constant vector (the new functions at y are the old ones at y minus the vector), the run is the same, with all points moved by the vector: same calls in the same order at the moved points, same values, decisions, radii, penalty parameters, counters and status, moved returned point.", "quantifier": "for all problems, vectors, start points, options and results of the numerical kernels", "why_tests_cant": "Two runs of unbounded length for an unbounded family of problems and vectors are compared; a dependence on the origin shows only for points of large norm, very small radii or particular bounds.", "anchors": ["sqpdfo/sqpdfo_main.py:sqpdfo_main_", "sqpdfo/sqpdfo_find_smallf.py:sqpdfo_find_smallf_", "sqpdfo/bcdfo_build_QR_of_Y.py:bcdfo_build_QR_of_Y_", "sqpdfo/sqpdfo_solve_TR_bc.py:sqpdfo_solve_TR_bc_"]}
{"id": "C119", "title": "The order of the variables does not matter", "statement": "If the variables of a problem (components of start point and bounds, arguments of the functions) are given in another order, optimize makes the same run with the components of all points in this order: same values, decisions, radii, penalty parameters, counters and status, and the returned point in the new order.", "quantifier": "for all problems, numbers of variables, permutations, start points, options and results of the numerical kernels", "why_tests_cant": "Two runs of unbounded length are compared for all permutations of unboundedly many variables; a dependence on the order shows only if the choice among points of the interpolation set depends on their position.", "anchors": ["sqpdfo/sqpdfo_main.py:sqpdfo_main_", "sqpdfo/sqpdfo_prelim.py:sqpdfo_prelim_ (L304-L315)", "sqpdfo/sqpdfo_find_smallf.py:sqpdfo_find_smallf_ (L119)", "sqpdfo/bcdfo_gradP.py:bcdfo_gradP_"]}
{"id": "C120", "title": "Looser tolerances end the run earlier", "statement": "Two calls of optimize differ only in the tolerances tol_grad, tol_feas and tol_bnds, which are at least as large (finite) in the second call. The two calls make exactly the same passes until one of the measures of optimality (gradient of the Lagrangian, constraint violation, complementarity) lies between the tolerances of the two calls. From there the second call ends with status 0 if the first one does, and it never needs more evaluations of the user's functions than the first call.", "quantifier": "all arguments of the right types, user functions, options and tolerances, all results of the numerical kernels (the same in the common passes), all numbers of passes", "why_tests_cant": "A test compares two runs of one problem with two tolerances; the claim is about every problem, every pair of tolerances and every pass in which a measure can lie between them (first test, second test with the factor 100, radius of the improvement after a step without predicted reduction).", "anchors": ["sqpdfo/sqpdfo_main.py:282-300", "sqpdfo/sqpdfo_main.py:318-330", "sqpdfo/sqpdfo_main.py:425-447", "sqpdfo/sqpdfo_main.py:590-639", "sqpdfo/sqpdfo_options.py:98-130"]}
{"id": "C121", "title": "The sign of the equality constraints does not matter", "statement": "If the constraint function returns some of the equality constraints with the other sign, optimize does the same: it evaluates the same points in the same order, takes the same decisions with the same radii, penalty parameters and slacks, ends with the same status or exception and returns the same point; the constraint values it records are the same up to these signs, and so are the rows of the gradients of the constraints. (Inequality constraints, which carry slacks, keep their sign.)", "quantifier": "for all problems, numbers of constraints, choices of equality constraints, start points, options, kernel results and runs", "why_tests_cant": "The statement relates two runs of arbitrary length for every choice of signs; every use of the constraint values (limits for huge values, norm of the residual, best point of the set, slacks, stored columns) must treat both signs alike.", "anchors": ["sqpdfo/sqpdfo_main.py:sqpdfo_main_ (L140-L1490)", "sqpdfo/sqpdfo_augmX_evalf.py:138-139", "sqpdfo/sqpdfo_prelim.py:382-383", "sqpdfo/sqpdfo_find_smallf.py:sqpdfo_find_smallf_"]}
{"id": "C122", "title": "compare_array accepts exactly the arrays that agree within the tolerances", "statement": "compare_array(x, y, abs_tol, rel_tol) with positive tolerances returns True exactly if x and y have the same shape and every pair of entries at the same position is either the same infinity, or two finite numbers that differ by less than abs_tol and, unless one of them is at most abs_tol in absolute value, by less than rel_tol times the first number. It is False if a NaN occurs, the order of the two arrays does not matter, and larger tolerances accept more.", "quantifier": "all arrays with one or two dimensions of any size, with finite numbers, infinities and NaN, all positive finite tolerances", "why_tests_cant": "All tests of the repository are written with compare_array, so they cannot reveal what it accepts wrongly: they would pass. The claim is about all pairs of arrays, including different shapes, single entries and infinities.", "anchors": ["sqpdfo/runtime.py:510-537"]}
{"id": "C123", "title": "The sign of the variables does not matter", "statement": "If some of the variables of a problem are replaced by their negatives (start point, bounds, user functions), optimize makes the same run: it evaluates the mirrored points in the same order with the same decisions, radii, penalty parameters, counters and status, and returns the mirrored point; gradients of the models have the other sign in these components.", "quantifier": "all problems, bounds, options, choices of variables, kernel results and numbers of passes", "why_tests_cant": "The claim relates pairs of runs of arbitrary length for every choice of signs; a test compares two runs of one problem, which agree unless an initial point or a bound treats the two directions differently.", "anchors": ["sqpdfo/sqpdfo_main.py:sqpdfo_main_ (L140-L1490)", "sqpdfo/sqpdfo_prelim.py:250-400", "sqpdfo/sqpdfo_find_smallf.py:89-97"]}
{"id": "C124", "title": "The report at the end of a call tells what was returned", "statement": "With verbosity at least 1, every call of optimize that returns prints a report with the returned status and its text, the objective value of the returned point (which is the returned info.f), the returned measures of optimality, the number of iterations and the number of calls of the objective, to the output chosen by options.fout; from verbosity 3 on it lists the first 40 variables with their bounds and the components of the returned point, and the first 40 values that the constraint function gave there.", "quantifier": "all problems, options, kernel results and numbers of passes", "why_tests_cant": "The tests of whole runs use verbosity 0, and no test reads the printed text; which index of the histories the printed values belong to depends on the whole run, and a wrong one shows only in runs whose last evaluated point is not the best one.", "anchors": ["sqpdfo/sqpdfo_finish.py:12-57", "sqpdfo/sqpdfo.py:285-291", "sqpdfo/sqpdfo.py:341-377", "sqpdfo/runtime.py:348-372"]}
{"id": "C125", "title": "No step is rejected on problems with affine objective and affine constraints", "statement": "For an affine objective and affine equality constraints (values below 1e25) with linear models, true Lagrange polynomials, trial points outside the set, a predicted change of the objective that is at least that of the linear model (positive semidefinite matrices) and a predicted reduction of the constraint norm that is at most that of the linearised constraints at the trial point: in every pass the models have the true gradients and the linearised constraints equal the constraints, every step with a predicted decrease of the merit function becomes the iterate, the exact merit function falls by at least the predicted amount, the radius is not reduced by it, and all other passes leave iterate, set and radius as they were after the improvement of the set. If no pass improves the set and all predicted decreases are at least eps, the number of passes is at most sigma*(f(x0) - low + |c(x0)|)/eps with the final penalty parameter sigma and a lower bound low of the values. The models of the code meet the condition on the models.", "quantifier": "all affine problems with at least one equality constraint and without inequalities, all kernel results that meet the conditions, all numbers of passes", "why_tests_cant": "Rejected steps on affine problems could come from a wrong column of the constraint values, a stale Jacobian or a wrong reference value of the merit function after many passes; a test sees one run and cannot tell whether a rejection is correct.", "anchors": ["sqpdfo/sqpdfo_main.py:540-558", "sqpdfo/sqpdfo_main.py:729-745", "sqpdfo/sqpdfo_main.py:866-890", "sqpdfo/sqpdfo_solve_TR_bc.py:249-255"]}
{"id": "C126", "title": "The search for the parameter of a bounded step: choice of the component, Newton step and interval", "statement": "In bcdfo_solve_TR_MS_bc_ with stratLam=1, when a step violates bounds the next lambda is computed from the free variable that violates its bounds most, and when it is within the bounds from the variable closest to a bound that was violated in an earlier round. For a diagonal matrix the next lambda puts that variable exactly on its bound if that value is well within the interval. lambda stays in [lower, upper] in all rounds, lower never decreases, and after the first step within the bounds the intervals are nested and get shorter in every round. In every pass of a call whose unconstrained step is not a hard case, the bounds that this step violates were not reached before, and the search ends with a lambda that is at least that of the unconstrained step.", "quantifier": "all dimensions, bounds, matrices, kernel results that meet their specification, and numbers of rounds", "why_tests_cant": "A wrong choice of the component or a wrong end of the interval still leads to some step within the bounds, only later or with another lambda; the tests compare steps for a few problems with at most two violated bounds.", "anchors": ["sqpdfo/bcdfo_solve_TR_MS_bc.py:172-210", "sqpdfo/bcdfo_solve_TR_MS_bc.py:213-416"]}
{"id": "C127", "title": "The interval of the unconstrained trust-region solver contains the multiplier", "statement": "In bcdfo_solve_TR_MS_, if the trust-region problem has a solution on the sphere with multiplier lambda* (the conditions of More and Sorensen), then lower <= lambda* <= upper at the start and after every number of rounds without an accepted step, so the current lambda differs from lambda* by at most upper - lower. The loop ends without an accepted step only after 300 rounds or with upper - lower < 1e-13*max(1,upper). For a multiple of the identity the Newton step gives the lambda for which the step has the length Delta, if it is well within the interval.", "quantifier": "all dimensions, gradients, symmetric matrices, radii, tolerances, numbers of rounds, and kernels that meet their specification", "why_tests_cant": "A wrong end of the interval after one round excludes the solution, but the safeguard still gives some lambda in the wrong interval; tests check the final step for a few matrices and do not look at the interval.", "anchors": ["sqpdfo/bcdfo_solve_TR_MS.py:119-181", "sqpdfo/bcdfo_solve_TR_MS.py:185-272"]}
