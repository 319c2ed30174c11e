# Design of the Lean model of sqpdfo

Source modelled: `/repo/sqpdfo/*.py` (read as text, never executed).
Lean project: `lean/`, one library `Verif`.

## 1. Layout

| directory | contents |
|---|---|
| `Verif/Model/` | definitions that mirror the Python code, function by function, each with a comment citing file and lines |
| `Verif/Spec/` | small specifications written without reference to the model's helpers |
| `Verif/Lemmas/` | auxiliary lemmas |
| `Verif/Props/` | the property theorems `Cxx_…`, the non-vacuity `example`s next to them, and `#print axioms` |

## 2. Modelling conventions

* **Arithmetic is exact.** Decision logic is modelled over an arbitrary linearly
  ordered field `K` (so examples can be computed over `ℚ`), code that needs square
  roots or Euclidean norms over `ℝ`. Floating point rounding, overflow and underflow
  are *not* modelled. Where NaN and infinities matter for control flow (option values,
  results of the user's functions) an explicit float-like type
  `Fl = nan | pinf | ninf | fin q` with the IEEE comparison rules is used.
* **Exceptions are values.** A Python exception that escapes (IndexError, TypeError …)
  is a constructor of the result type. Early `return`s are constructors of a step result.
* **Numerical kernels are parameters.** QR, SVD, eigh, Cholesky, pinv, the user's
  functions, and inside the main loop the model/step/multiplier computations are
  parameters (oracles), quantified universally. A theorem that needs something of a
  kernel states it as a hypothesis (for example `Q` orthogonal, `Q*R = Z`). Kernels that
  are themselves modelled (CG, BFGS, polynomial algebra, repair, include, swap,
  active-set solver …) get their contracts proved in their own file.
* **Loops are recursive functions.** `while` loops without an evident bound are fuelled;
  termination theorems then show that enough fuel always exists, and that more fuel does
  not change the result.
* **Printing, timing and the `verbose` branches** are dropped everywhere.
* Python lists/arrays of points are Lean `List`s or functions `Fin n → K`. Index errors
  are explicit where the code can raise them. No `head!`, `get!`, `getD`-style defaults
  are used where the default could be observed, unless the comment says so.

## 3. Trusted base

* The Lean 4 kernel. Theorems depend at most on `propext`, `Classical.choice`,
  `Quot.sound`; every `Props` file prints the axioms of its theorems.
* No own axioms, no `sorry`, no `native_decide`, no `bv_decide`, no `implemented_by`,
  no `unsafe`.
* The correspondence model ↔ Python is by reading. It is documented definition by
  definition by file/line citations; simplifications are named there.
* Not modelled at all: `runtime.py` as such (its helpers are modelled where used, e.g.
  NaN-ignoring `max_`/`min_`, `find_`, `concatenate_` dropping empties), `helper.py`,
  printing in `sqpdfo_iter_printout.py` (the content of the final report is modelled, C124),
  `ecdfo_*`/test problem files, the unused solvers (`bcdfo_find_new_yj_bc`,
  `bcdfo_checkZ…`).
* Numerical linear algebra of numpy/scipy is assumed exact where a theorem says so.

## 4. Properties

Per property: what is modelled, how it is proved.

* **C01/C02** `Model/Options`: `sqpdfo_options_` field by field over `Fl` and strings.
  Spec: a separate predicate `LegalOptions`. Decision theorem (iff) and a completeness
  theorem by case analysis over the sequential checks.
* **C03** `Model/Entry`: the argument checks of `sqpdfo_` followed by the checks of
  `sqpdfo_prelim_`, with a log of user function calls as an output; theorem: the log is empty.
* **C04/C05** `Model/Bounds`: the bounds loop of `sqpdfo_prelim_` (L161–L234) as a fold
  over variables; induction with the invariant "Δ only decreases, all processed components
  are at distance ≥ the *final* Δ" – note the code moves `x0[i]` using the Δ current at `i`,
  so the invariant needs care (a larger earlier Δ still suffices).
* **C06/C07/C08** `Model/Eval`: `sqpdfo_func_`, `sqpdfo_evalfgh_`, `sqpdfo_augmX_evalf_`
  on `Fl`. Decision theorem for one call; induction over sequences of calls.
* **C09–C19, C49, C51** `Model/Main`: one pass of the loop of `sqpdfo_main_` as a function
  `pass : Env → PassOracle → State → PassResult`, the loop as iteration with a stream of
  oracles. Invariants by induction over passes; termination by the iteration counter.
* **C20/C21/C23** `Model/Entry`: process globals and object identity (instance vs class)
  are explicit state; theorems and counterexample by two-call executions.
* **C22** `Model/Slack` over ℝ: algebra with square roots.
* **C24–C27** `Model/InterpSet`: list operations. Permutation/involution laws, fold
  invariants (argmax), bounded rounds.
* **C28–C30** `Model/TruncCG` over ℝ vectors (`Fin n → ℝ`), fuel = max_iter+1. Invariants of
  Steihaug CG: gradient consistency, conjugacy-free monotonicity of the model
  (uses ⟨g,d⟩ = −‖g‖²), ball.
* **C31/C32** `Model/BFGS` with Mathlib matrices; Cauchy–Schwarz for the H-inner product.
* **C33/C52** `Model/Convex`, `Model/Cond`: given an eigen/singular value decomposition.
* **C34/C35/C53** `Model/Poly`: index-exact models of `bcdfo_evalZ/evalP/gradP/hessP`;
  a polynomial identity for partially filled subdiagonals, by sums over list positions.
* **C36/C37** `Model/Interp`: coefficients computed via QR factors (hypothesis `Q*R=Z`,
  orthogonality, invertibility) and cardinality.
* **C38** `Model/ProjGrad`; **C39–C41** `Model/Multiplier`, `Model/Optimality`.
* **C42**, **C61** `Model/TRMS` (loop with factorisation, solve and eigenvalue kernels; contracts `Spec.GoodKer`, met
  by `Ex.realKer` over the reals through the spectral theorem in `Lemmas/Spectral`), **C43** `Model/TRMSbc`,
  **C44** `Model/SolveTR`, **C45** `Model/Blls`, **C46** `Model/QuadMin`, **C54** `Model/NewYj`.
* **C47** `Model/Status`: constants table, message table, documented table; negation by
  witness, plus which part agrees.
* **C48** `Model/InitSet`: initial sampling loop; divergence for `x0 = 0` (negation) and
  termination bound for `x0 ≠ 0` (partial).
* **C50** (`Props/C50_Evaluated.lean`, `Lemmas/MainLog.lean`): every stage of a pass is shown to extend the log of evaluated
  points by known points only (`Grew`): trial points, proposals of the improvement procedure, initial points.  Trial points are within
  the bounds by C43/C44 (`Spec.FromSolver`), initial points by C04.  Negation by a run in which the improvement
  procedure, which C71 computes exactly for one variable, leaves the bounds.
* **C71** (`Props/C71_Linear.lean`): with linear models the Hessian is zero, the subproblem solver stops in its first round on the
  boundary, and Cauchy-Schwarz gives the maximum.
* **C72** (`Props/C72_Gradients.lean`, `Lemmas/MainGrad.lean`): `gx`, `info.g`, `info.ae` are part of the state of the main loop and are
  recomputed where the code does it; an invariant (`Fresh`) is shown to be preserved by every stage of a pass.
* **C73** (`Props/C73_GradientError.lean`): with the exact Lagrange identity of C37 the gradient error is a combination of the gradients of
  the Lagrange polynomials; these are bounded by the computed poisedness through the subproblem solver (C61, C62, C71). The smoothness
  hypothesis is a second-order bound, which a Lipschitz gradient implies (`smooth_of_lipschitz`).
* **C74** (`Model/Kernels.lean`, `Props/C74_Certificate.lean`): the kernels of the main-loop model are instantiated by the models of
  QR, coefficients, gradients and poisedness; the invariants of the loop (C58, C64, C72) give exact data at the returned point, C73 bounds the error of
  the gradients, and the result is the bound on the residual with true gradients. Only the first convergence test is treated.
* **C75** (`Model/WhichModel.lean`, `Props/C75_Kinds.lean`, `Lemmas/QRExists.lean`): the four kinds with their own factorisation and formulas. For the
  three complete kinds the coefficients are `B f` with one matrix `B`; `Zᵀ B = 1` and `B = Z C` give interpolation and minimal norm, the normal equations
  give the least-squares property. The assumptions on `qr` and `pinv` are shown to be satisfiable (`exists_goodKit`, from the LDL decomposition).
  The kind `Frobnorm` is refuted.
* **C76** (`Model/Hessian.lean`, `Props/C76_C77_Hessian.lean`): the Hessian is characterised without derivatives: its quadratic form gives all second
  differences of the Lagrangian of the models. The coefficients depend linearly on the data (C75); the slack terms are constants, which every handled
  kind reproduces: in the minimum-norm case because the base point is the origin of the shifted coordinates.
* **C77** (same files): `hessBfgs` around the model of `sqpdfo_bfgs_update_` (C31, C32); induction over lists of calls. `rejectedIn` are the arguments of the
  call after a rejected step. Part (c) is refuted.
* **C78** (`Model/Ldl.lean`, `Props/C78_Ldl.lean`): index sets are finite linear orders, blocks are functions on subtypes. `rk1Loop_spec`: induction over the
  remaining indices; what is left to add is `alpha u uᵀ` for the current `alpha` and `u`. `ldlup` and `ldldown` by splitting sums at `j`. Directions: the
  quadratic form of `L D Lᵀ` is the sum of `d_m (Lᵀp)_m²`. The full claim is refuted in three places.
* **C79** (`Model/Minq.lean`, `Props/C79_Minq.lean`): the whole solver around C46, C60 and C78. The invariant holds for every search direction, so
  the errors of C78 do not matter for it. Optimality: a coordinate search over all variables that does not lower the value has not moved, each coordinate
  is minimal, and convexity does the rest. Witnesses: passes with one free variable, for every solver of linear systems that meets its contract.
* **C80** (`Model/Whole.lean`, `Props/C80_OptionReads.lean`): the reads of options between validation and main loop and in the Hessian, as a decision function; proved
  equivalent to a condition on the user's options. Refuted as a whole (items 56, 57).
* **C81** (`Model/Whole.lean`, `Lemmas/Whole.lean`, `Lemmas/WholeSetup.lean`, `Props/C81_Whole.lean`): composition of the set-up (C01-C08, C48), the reads of C80 and the main loop
  (C09-C16) into one function `call`. `call_starts` shows that the data handed over satisfy `Starts`, the assumption of all theorems on the main
  loop, so these hold for every call. Kernel results stay arbitrary. Outside of this model (`CallRes.outside`): tolerances that are NaN or infinite, and the mode
  `bfgs` without `bfgs_restart`.
* **C82-C84** (`Spec/Step.lean`, `Lemmas/StepDetail.lean`, `Props/C82_C84_StepDetail.lean`): what one pass does to slacks, radius and interpolation set. `decideStep_detail` lists the
  three outcomes (trial point accepted, kept in the set only, dropped) with the chosen position; `pass_stages` gives the states between the stages. The choice
  of a position is specified by thresholds and a maximum (`Chosen`), the radius by the equation that the interpolated point satisfies. The residual in C17 is now specified
  by its components (`Residual`), with the constraint values at the trial point and the trial slacks.
* **C85, C86** (`Props/C85_C86_Restoration.lean`): the restoration part of the composite step and the treatment of zero steps. `viol` is the sum of squares of the linearised
  constraints; the rows of bounds that are active at the start enter the function that the restoration step minimises. Both full claims are false, with runs
  as witnesses.
* **C87** (`Props/C87_HardCase.lean`) on `Model/TRMS`: the hypotheses describe the hard case by the eigenvalues (`Spec.NearMin`: within the tolerance of the smallest) and the step over the
  other eigenvectors (`Spec.othStep`); the test of the code follows from them. Minimality by the optimality conditions of the ball problem.
* **C88** (`Props/C88_BllsDescent.lean`, `Props/C88_Backtrack.lean`) on `Model/Blls`: the Cauchy search by induction over its passes; minimality over the face by splitting sums over lower, upper and free variables. The
  counterexample is a run of the model with exact pseudo-inverses and norms rounded up to twenty decimals.
* **C89, C90, C91** (`Props/C89_C91_BoundedStep.lean`) on `Model/TRMSbc`: invariants over the passes of the main loop, from the description of a pass in `C43_C66_TRMSbc` (`BCPassOut`,
  `BCPassNext`, `BCFound`: the step found by the homotopy solves the shifted system for a nonnegative `lambda`). "No pseudo-hard case" is expressed by the returned counter of eigenvalue
  decompositions. C91 counts the passes by the components near a bound; the increase of a pass is a midpoint rule (exact for quadratics).
* **C92** (`Props/C92_History.lean`, spec `Spec/History.lean`) on `Model/History`, which lists the lines that the stages of `Model/Main` append to `convhist.m`: a predicate `Wrote` on the lines and the end
  of a stage that composes (`Wrote.append`), proved stage by stage under the invariant `Inv` and lifted to the loop by induction; then the whole call as in C81.
* **C93** (`Props/C93_Subspace.lean`) on `Model/Minq`: an invariant of the factors (unit lower triangular, positive diagonal, rows and columns outside the free set trivial) kept by `ldldown`, `ldlup` and hence by
  every direction computation; induction over the sequence of free sets (`Spec.Reached`). Then `p = -L⁻ᵀ D⁻¹ L⁻¹ g`.
* **C75, C80 (additions)**: `C75_returned` drops poisedness (returned models interpolate, unpoised sets raise); `C80_calls_partial` (`Props/C80_InitialCall.lean`) states the reads before the main loop for whole calls, with the
  bounds and the first sampled point of the call.
* **C94, C95** (`Model/StartPoint`, `Props/C94_C95_StartPoint.lean`): the loop over the bounds again, for values of `Fl K` (NaN, infinities, numbers) and with the way a moved value is stored as a parameter (`keepFloat`, or
  `keepInt` for integer arrays). C94 by case lemmas for one variable and induction; `C94_refines` links it to `Model/Bounds`. C95 is false (`C95_false`).
* **C96** (`Model/NullSpace`, `Props/C96_Tangent.lean`): `null_` selects rows of `vh`; the decomposition itself is a kernel with the contract `Spec.IsSvd`. Orthonormality, near-orthogonality to the rows and completeness follow; then C28, C29,
  C30 and C63 for the reduced problem. Not covered: dependent rows with `n + q - rank > 20 (n - m)`, where the limit on the iterations could stop the solver early.
* **C97** (`Spec/Step.lean`, `Lemmas/MainBefore.lean`: `Improvement`, `Lemmas/StepDetail.lean`: `decideStep_poisedFlag`, `Props/C97_Flag.lean`): the flag `poised_model`, the precision and the radius after one pass, then induction over
  the passes for runs without improvement. C83 and C84 use the same facts for radius, precision and set after an improvement.
* **C98** (`Lemmas/MainKeep.lean`, `Props/C98_C99_Causal.lean`): `Longer` relates two moments of a run: the points of the later calls are appended to points and call logs, the values are a prefix, constraint values
  below `1e25` are kept; proved for every stage of a pass and by induction for runs. Negations: concrete runs with constraint values above `1e25`.
* **C99** (`Lemmas/MainAgree.lean`, `Props/C98_C99_Causal.lean`): `AgreeOn` says that two user functions answer the calls of a list alike; every stage with other user functions gives the same result if they agree on the calls
  recorded in that result; then loop, sampling, set-up and whole call.
* **C100** (`Lemmas/MainBefore.lean`, `Props/C100_NotWorse.lean`): invariant `BelowStart`: iterate, memorised reference value and, after a step that was not rejected, `info.f` are at most the value of the start point; the improvement of the
  set only exchanges for strictly better points; a step is accepted only below the reference value. `call_main` carries the statement to whole calls. Negation: a concrete run with a constraint and a raised penalty parameter.
* **C101** (`Spec/Shift.lean`, `Lemmas/MainShift.lean`, `Props/C101_Shift.lean`): each stage of a pass commutes with adding `d` to all objective values of a state (gradients erased, memorised reference values only compared while they are in
  use); a run for `f` and the run for `f + d` have a common image, hence they correspond step by step. Sampling, set-up and whole calls in the same way. `ShiftedBy` in the specification lists every component of the state.
* **C102** (`Props/C102_Constant.lean`): the first monomial is 1, so the constant polynomial has the values 1; it lies in the range of the matrix of monomials because the base point is an interpolation point, hence it is the model of the values 1.
  Linearity of the coefficients in the values gives the rest; gradients and Hessians do not read the first coefficient. The models of the loop satisfy the hypothesis of `C101_kernels`.
* **C103** (`Model/Cured`, `Lemmas/SvdExists`, `Props/C103_Cured.lean`): the correction of the matrix by singular values. `C103_matrix` is stated with stretchings of vectors only, without the decomposition.
  Existence of a decomposition (the hypothesis on the kernel) is proved from the spectral theorem. For the models the residual is the projection of the data on a complement, or is damped by `s_i / max(s_i, δ)`.
* **C104** (`Lemmas/MainPoised`, `Props/C104_Poised.lean`): invariant of the loop with linear models: only the zero affine function vanishes on the set. It starts with C65; a replacement keeps it if the Lagrange function of the
  replaced point does not vanish at the new point. For `bcdfo_include_in_Y_` this follows from the thresholds, for `bcdfo_repair_Y_` from C71 (the proposal maximises the modulus on a ball of positive radius); swaps permute.
  Over the reals the conditions are derived from the models of `bcdfo_find_new_yj_` and `bcdfo_evalL_` (`Spec.CodeLagrange`; `code_exists` shows that they can always be met). This removes the hypothesis on the final set from C74 for linear models.
* **C105, C106** (`Model/Runtime`, `Props/C105_C106_Runtime.lean`): the array helpers of `runtime.py`. The two nested loops of `concatenate_` are shown to be a filter (induction on the number of empty blocks); then the contents of the result are
  computed by induction over the blocks. `find_` by induction over the array; `max_`/`min_` through an order with NaN at the bottom, the minimum by reflection. `C106_findIdx` and `C106_argMin` connect them with the functions used in the model of the main loop.
* **C107** (`Props/C107_Status0.lean`): the second convergence test, for linear models. `second_return` collects what a return with status 0 says about the repaired set; the exchange of the base point by `find_smallf_` keeps the points, and
  `acc_moved` carries the bound on the gradient from the old to the new base point (this costs `n/2 + 1` instead of `n/2`). For verbosity 4 the poisedness is that of the repaired set (`C107_verbose_partial`). For lower verbosity the code uses the result of
  the repair; fewer than 20 rounds mean that no improvement by more than 6/5 is left in the ball of the repair, which bounds the poisedness in the ball of the set (`poisedness_scaled`, `C107_quiet_partial`). `repaired_ball` shows that the repaired set
  lies in the ball of the repair, from the model of `bcdfo_find_new_yj_` (`repairY_congr`: only proposals for sets that determine affine functions matter), and the radius of the repair is at most 1e-5 (`C107_defaults_partial`).
* **C108** (`Props/C108_Multipliers.lean`) on `Model/LmTrace`, which follows the variable `lm` along the stages of `Model/Main`; `sqpdfo_compute_multiplier_` is an arbitrary function of the iterate, the stored gradients and the slacks, and the step
  computation may replace `lm` in an arbitrary way. `firstHalf_lm`: after the first half of a pass `lm` belongs to the state; status 0 is only returned there. `C108_pass` says what `lm` is after a complete pass. In the two counterexamples the kernel is proved
  to be the least-squares multiplier of C40 (`bMult_least`), and the returned multiplier is not one for the returned data.
* **C109** (`Props/C109_Limits.lean`) on `Model/Main` and `Model/Whole`. `pass_limits`: a pass stops at a limit or does not depend on the limits. `C109_loop`: induction over the passes. `C109_call_partial`: the set-up hands the limits over
  unchanged and does not use them (`setup_limits`, `prelimRaise_limits`, `envOf_limits`); the history grows as in C98. `C109_worse_false`: concrete calls with limits 3 and 4.
* **C110** (`Props/C110_Repeated.lean`) on `Model/Main`, `Model/InitSet`, `Model/SolveTR`. `C110_sampling_partial`: the points `x0 - D e_i` are different for `D ≠ 0` (`C48_done_complete` says that they are what was evaluated). `C110_set_partial`: a set on which every
  interpolation problem has exactly one affine solution has no repeated point (`C104_poised`). `C110_zero_step`: for a step without predicted reductions `pred = -1`, the step is rejected without change; the evaluation comes before. The negations are runs, with the step solver of C44.
* **C111** (`Props/C111_Successful.lean`) on `Model/Main`. `Spec.gains` lists the predicted decreases of the passes of a run after which the trial point is the iterate (`Taken`), or after which in addition the step counts as successful (`Regular`). Invariant `Level e b`: the value of the
  iterate, and the value the next step will be compared with, are at most `b`; a regular step lowers `b` by `1e-4 pred`. `C111_infinite` (Archimedean field) speaks about an infinite sequence of passes; its example is a run without end in which every step is accepted, built from a lemma
  that such a state has such a successor. `C111_linear`: the Lagrange values at any point sum up to 1, so one of them is at least `1/(n+1)` and the trial point enters the set. `C111_false`: a run from 3 to 1, 2 (a point of the set) and 0.
* **C112** (`Props/C112_Cauchy.lean`) on `Model/TruncCG`, `Model/TRMS`, `Model/TRMSbc`, `Model/SolveTR`. `Spec.cauchyDec a r β = a/2 · min(r, a/β)`. Conjugate gradients: the first direction is the steepest descent direction, so the first iterate has this decrease (or the sphere is reached along it),
  and the later ones only decrease the model (`cgLoop_below`, from the chain of C30). Moré-Sorensen: an accepted step satisfies `(H + λI)s = -g` with `H + λI` positive semidefinite, so the model at any `d` is at least that at `s` plus `λ/2 (|s|² - |d|²)`; `d` is the Cauchy point of `H` (if
  `|s|` reaches `(1-εD)Δ`) or of `H + λI` (if `λ ≤ 1e-12`). Tangent step: every tangent direction is in the range of the null-space basis, so its gradient component is at most the length of the reduced gradient.
* **C113** (`Props/C113_Complexity.lean`) on `Model/Main`. From C83 a step that is taken multiplies the radius by at most 5, any other one halves it at least; so `δ_N 2^N ≤ δ_0 2^(4S)` after `N` passes with `S` steps taken (`descend_power`), which with `δ > 1e-5` gives `N ≤ 4S + L`; `S` is bounded by C111.
  `C113_gradient` puts in the constant of C112. The example is a run with two accepted steps and a rejected one; its hypotheses are checked by a Boolean function with a soundness lemma (`Ex.dCheck_sound`).
  `C113_solver` replaces the hypotheses on the length and on the predicted decrease by the condition that the trial point and `qcost` come from the modelled solver `solveTR0` (`BySolver`): the decrease is C112, the length C66/C90 (`solveTR0_length`). The example for `BySolver` is a pass over ℝ with the real kernels; the rest of the hypotheses are those of the rational run.
* **C114** (`Props/C114_Merit.lean`) on `Model/Main`. Divide the merit function by the penalty parameter: `(f - low)/σ + |c|` does not increase when `σ` grows, as `f ≥ low`. Invariant `MeritLevel e low b`: this value at the iterate, at the memorised values `f0`, `|c0|` and at `info`
  is at most `b` (the next step is compared with one of them, depending on the rejected flag); a successful step lowers `b` by `1e-4 pred/σ`; the move of the slacks away from zero does not increase the residual (`moved_residual`, from C82, for any `sqrt` that is at least as good as 0). The residual
  in the statements is the one of the recorded constraint values (invariants of C64). Examples: a run for `|x - 10|` with `x = 0` in which the penalty parameter grows, with two accepted steps and a rejected one; a run with a slack.
* **C115** (`Props/C115_Forward.lean`) on `Model/Main`. Invariant `Frank`: no step has been rejected and `info.f` is the value of the iterate (unless the last pass had no step). With `Honest` the merit value at the trial point is below the memorised one by at least `pred`, so the ratio
  is at least 1 and `decideStep_enters` gives the accepted branch; the step does not reduce the radius as the ratio is above both thresholds. The penalty parameter may grow in the pass; the memorised merit value is then computed again. Affine objectives: the sets stay poised (C104), a model that
  is exact for affine functions (`ExactLinear`) has the gradient of the objective, the change of the objective is `along` the gradient, and a matrix without negative curvature predicts at most that decrease. `kern_exact`: the model computed by the code (QR factorisation with its specification)
  meets `ExactLinear`. Examples: four passes of `2 x` over `ℚ`, with one improvement and one pass without a step; two passes with a constraint in which the penalty parameter grows; one pass over `ℝ` with the functions of the code and the matrix 1. The examples of C114 also contain a
  constrained run without end (`C114_infinite`; constant constraint value 1, a fading objective).
* **C116** (`Props/C116_Order.lean`, `Lemmas/MainReorder.lean`, `Spec/Reorder.lean`) on `Model/Main` and `Model/Whole`. Every stage of a pass commutes with the map `stRe σ` that reorders all constraint columns and
  forgets the gradients (which the loop only stores); a run and the reordered run have the same image, so they are related by `ReorderedBy σ`. The limits for huge values use the extreme values of all columns
  (invariant as a multiset), the residual subtracts squared slacks from the last entries only (fixed by `σ`), the norm is assumed not to depend on the order (shown for the Euclidean norm). Gradients come back through C72:
  they are the models of the stored columns. For calls the set-up (`initSlacks` reads the last entries) is treated in the same way. Rounding, which makes real kernels depend on the order, is outside of the model.
* **C117** (`Model/Norm`, `Props/C117_Norm.lean`): `norm_` as a function of arrays with one or two dimensions, with the branch on `isvector_or_scalar_` and the two ways to reshape. The norms of numpy are modelled by their definitions for each number
  of dimensions; for the order 2 of a matrix the largest singular value is a parameter with its defining property (a factor that is a bound and is attained), whose existence is proved by compactness of the sphere. For a row the factor is the
  Euclidean length (Cauchy-Schwarz). `C117_run` connects the result with the norm of the runs (`Env.nrm`, assumption `hnrm` of `C113_solver`).
* **C118** (`Spec/Translate`, `Lemmas/MainTranslate`, `Lemmas/SolveTRMove`, `Props/C118_Translate.lean`): simulation between the main loop for a problem and the main loop for the same problem in other coordinates (`Carried`: maps for points, factorisations and
  gradients; same norms of differences). The equality of the two runs (`mainLoop_tr`) needs, at the points at which the user's functions are called, equal stopping radii (`SameFloor`) and equal answers of the bound test (`SameSide`); both conditions are threaded through the stages with the
  invariant of the loop (the iterate and the points of the set are evaluated points). Instances: a constant vector added to all points (`C118_run_partial`), one number added to all components (`C118_uniform_partial`), kernels as functions of the state (`C118_kernels_partial`).
  The modelled kernels are shown to be invariant: frame and factorisation, gradients, poisedness, improvement points, Lagrange values, step solver without and with constraints. Both conditions are needed (`C118_origin_false`, `C118_bounds_false`).
  The sampling needs values of at most `1e25` in absolute value, since otherwise it is repeated, with a stopping test that depends on the origin.
* **C119** (`Spec/Rename`, `Props/C119_Variables.lean`): a second instance of `C118_coordinates`, with a permutation of the components as map; for it the stopping radius and the bound test are always the same, and distances are the same for points of the right length, which is
  why `Carried` has a domain `D`. The initial sets of the two problems have the same points in another order (`C119_simplex`, `C119_start`); that this order matters is the counterexample. The gradients of linear models follow the permutation because they are those of the
  one affine function with the given values (`gradOf_affine`, from C73 with Lipschitz constant 0).
- **C120** (partial). `Props/C120_Tolerances.lean`. Two runs that differ in the tolerances only. `pass_tols`: a pass is the same unless it tells the tolerances apart
  (`ToldApart`: a measure between the tolerances in the first test, between 100 times the tolerances in the second test, or the constraint norm between them after a step without predicted reduction). `C120_loop` is the induction
  over the passes, `C120_call_partial` the statement for whole calls of `optimize`, with the end of the second call (status 0) when the models are good. `C120_more_false` is the negation of the claims about status and number of
  evaluations. The kernel results of common passes are assumed to be the same; with constraints the step solver gets its precision from the tolerances, and `C120_tangent` says what this changes for the conjugate gradient method
  (same path, earlier stop), `C120_tangent_false` that it can change the step.
* **C121** (`Props/C121_Signs.lean`, `Lemmas/MainSigns.lean`, `Spec/Signs.lean`) on `Model/Main` and `Model/Whole`. Every stage of a pass commutes with the map `stSg ε` that changes the sign of the marked entries of all
  constraint columns. The replacement of huge values does not; the invariant `Ce` (`Lemmas/MainCe`) shows that it does nothing if the user's values are smaller than `1e25`. The full property is false (`C121_huge_false`, finding 87),
  so the theorems on the loop and on whole calls carry the suffix `_partial`. `C121_kernels` assumes that the models change sign with their data, `C121_step` and `C121_norms` show that this suffices for the restoration step, the multipliers and
  the norms in exact arithmetic.
* **C122** (`Model/Compare`, `Props/C122_Compare.lean`): `compare_array` with the broadcasting of numpy, `np.delete` (with its `IndexError`) and the quotient of floats that raises nothing. For arrays with the same number of entries the deletion is shown to be a filter of the
  pairs (induction), so that the result is a test of every pair; `Close` and `entry` state this test by positions, without the model. Swap, monotonicity and the comparison with itself follow from the characterisation. The claim that a result `True` means equal shapes, and the claim of symmetry,
  are false (`C122_shape_false`, `C122_infinite_false`, `C122_transposed_false`, `C122_symmetric_false`).
* **C123** (`Spec/Mirror`, `Props/C123_Mirror.lean`): the third change of coordinates after C118 and C119, from `C118_coordinates` with the map `signed`. The distance of points and the stopping radius agree because the norm depends on absolute values only (`SignBlind`). The bound
  test agrees if all variables are mirrored (lower and upper bounds change places) or if all bounds are `-b` and `b`. The linear models are treated as in C119, through uniqueness of the affine function with given values. The initial points of the mirrored problem are those with the negative radius
  (`C123_simplex`), so whole runs differ (`C123_mirror_false`).
* **C124** (`Model/Report`, `Props/C124_Report.lean`): the report as a record (status, text, value, measures, counters, tables), a function of the result of `call` (C81). The value is that of the returned point by `C15`, the constraint values by the pairing invariant `Ce` of the
  main loop, the bounds by the checks of the set-up; options in effect through the completion of C02. False parts: no report for early returns (`C124_early_false`), none for `fout > 2` (`C124_fout_false`), and `info.f` may differ from the printed value (`C124_value_false`).
* **C125** (`Props/C125_AffineConstraints.lean`): from `C115_forward`. The pairing invariant `Ce` of the main loop gives the values of the affine functions for all points of the set, hence the true Jacobian; the trial column is the recorded one or, if all recorded constraint values are
  zero, empty (then all norms are 0). `C125_models` derives the condition on the models for `bcdfo_computeP_`/`bcdfo_gradP_` from C73. The predicted reduction of the code is that of the normal step (`sqpdfo_solve_TR_bc.py` L250-L255); it equals that of the whole step if the tangential step keeps the
  linearised constraints (`C125_split`), which is a hypothesis here. `C125_overestimated`: without it a good step is rejected. `C125_passes`: bound of the number of passes by induction with the scaled merit value of C114.
  Rounding, layout and multipliers are not modelled.
* **C126** (`Props/C126_Homotopy.lean`): the search for `lambda` in `Model/TRMSbc.lean`. `firstBest_best`: the fold of `max_`/`min_` gives a best element; with it the choice between the two sides (`C126_worst`, `C126_nearest`). `C126_newton`: `w1·w2` is component `i` of `(H + lambda*I)^(-1)*d`, so the update is
  Newton's method for `1/|d_i(lambda)| = 1/delta`, whose left side is affine in `lambda` for diagonal matrices. `C126_interval`: induction over rounds; `sqrt(lower*upper) ≤ (lower + upper)/2` keeps the safeguard away from the upper end. `C126_homotopy`: `lambda*|d|^2 = -d·g - d·Hd` and Cauchy-Schwarz give
  `lambda ≤ |g|/delta_b + |H|`, the initial upper end. A round is a relation that leaves the step free (`Spec.Round`), so the interval property does not depend on how the step is computed.
  `C126_search`: induction over the passes; in the first pass variables at a bound that the step violates are fixed (`ind_u_crit`, `ind_l_crit`), later free variables are farther than `eps_bound` from their bounds, so `delta_b > 0`; the linear system comes from C61.
* **C127** (`Props/C127_Multiplier.lean`): `step_antitone`: for `a < b` and `H + a*I` positive semidefinite the step for `b` is not longer than that for `a` (from `(H + a*I)(s - t) = (b - a)t`, no derivatives). With it each update of `lower` or `upper` keeps the multiplier inside; after a failed factorisation
  because positive definite matrices are factorised. The first interval by Cauchy-Schwarz. As `msLoop` with `r` rounds returns the state after `r` rounds, the statement for all `r` covers all intermediate states. `C127_newton` as `C126_newton`, for `H = h*I`.
* **C62** `Model/NewYj`: as C54; maximality from C61 for the polynomial and its opposite.
* **C63** on the CG model of C28: iterates as a sequence, orthogonality by induction over the iterations, and at
  most n nonzero pairwise orthogonal vectors exist in n dimensions.
* **C55**-**C58**, **C64** on the main-loop model (`Props/C55_C58_C64_Runs.lean`): C64 by an invariant of the
  constraint data (`Lemmas/MainCe.lean`) that is carried through every stage of a pass; C57 combines the index
  invariant of C24 with "no constraint values are recorded"; C55, C56 and C58 are false, the runs are computed.
* **C65** on the sampling model of C48: the points are described without the model's definition (`Spec.AxisSet`) and the
  affine interpolant is computed explicitly.
* **C43**, **C66** on `Model/TRMSbc` (`Props/C43_C66_TRMSbc.lean`): every round of the loop on `lambda` keeps the fixed
  variables and ends with a free variable at a bound (`HomStep`), so the number of variables within 1e-5 of
  a bound grows with every pass and `n` passes suffice; bounds, norm, value and length are invariants of the passes
  (`trmsBc_ind`).  No contract on the kernels is needed but for the length, which uses C42 and the triangle inequality.
* **C44**, **C67**-**C70** on `Model/SolveTR` (`Props/C44_C67_SolveTR.lean`, `Props/C68_C70_SolveTR.lean`): every pass is
  described by `stPass_spec` (restoration step, tangent step, return or next state); `solveTR_ind` is the induction over
  the passes, with a bound on the passes left (`passesLeft`): below `10*n` passes it is the counter, after that every pass
  that continues adds a row, and with `n + q` rows the step is zero.  Bounds: invariant "`x` is no further outside"
  (C43 for the restoration step, the ratio test for the kept part).  Length: `|x_k - x| <= 2*(delta - delta_k)`.
  Kernels: the restoration solver (`BCKer`), convexification, tangent step, multipliers, all arbitrary but for the
  hypotheses of each theorem; `Ex.realST` with an orthonormal null space basis and the truncated CG model meets them.

## 5. Disagreements between property, code and model (updated as found)

1. **C10**: `msimul` is only tested at the top of a pass (`sqpdfo_main.py` L227); a pass may
   evaluate up to p points, so only `msimul + p` is claimed. Even that is false if the initial
   sampling restarts (a value below -1e25): the evaluations of the abandoned round are not covered
   by any limit (`C10_restart_exceeds_budget`).
2. **C12**: the second convergence test (L615–L632) accepts `100*tol` (`factor_CV`).
3. **C16**: `info.f` is set by every evaluation (`sqpdfo_augmX_evalf.py` L99). After a step with
   `pred == -1` (L1076) it stays the value at the trial point although `x` is unchanged; if the
   next pass stops (budget, first convergence test, tiny radius) the returned `info.f` is
   the value at another point. After a successful step stored via the far/close replacement
   branch, L1470 restores `info.f = f0`, the value of the *previous* iterate.
4. **C17**: `f0`, `ce0`, `merit0` are only refreshed if the previous step was not "rejected"
   (L648). After a successful replacement in the L1165 block the flag stays `True`, so the
   next comparison uses the merit value of an older iterate. The theorem is about the
   memorised reference value. With exact Lagrange polynomials (which sum to 1) the replacement
   in the L1165 block after a good step does not happen, but the reference is also stale if
   the set is improved after a rejected step; that is the witness `C17_merit_increases`.
5. **C19**: `Delta` is multiplied by 5 or 2 without the cap `Deltamax` in the active branches
   (L1033–L1043).
6. **C20**: `nbr_slacks`/`slacks` globals are only written when `mi > 0` (`sqpdfo.py` L132–148).
7. **C21**: `copy(options)` of a *class* returns the class itself.
8. **C25**: `imin != 1` (L119, a leftover of 1-based indexing), broadcasting `(n,)` against `(n,1)`
   in the bounds test (L92), `int(sigma)` (L110).
9. **C40**: `blls_(A A^T, -A g)` minimises `‖A(A^T lm + g)‖`.
10. **C47**: docstring of `optimize` vs `sqpdfo_values`.
11. **C48**: initial sampling with `x0 = 0`; also the stall exit returns with status 0 and
    incomplete data.
12. **C50**: `hardcons = 0`, so improvement points ignore the bounds (`C50_false`: bounds [-2, 1.5], evaluated at 1.50001).
13. **C51**: the result flag of improvement evaluations is not tested (L491–530); the following
    `fX[m]` raises IndexError.
14. Partly fixed variables (`0 < nfix < n`) make the set-up crash (`sqpdfo_augmX_evalf.py` L83–84).
15. NaN option values pass every check.
16. Minimum Frobenius norm models (`whichmodel = frobnorm`) have no assignment of the
    coefficient vector between linear and full quadratic size (`bcdfo_computeP.py`,
    `bcdfo_computeLj.py`), and `bcdfo_evalL.py` uses `/` instead of solving.
17. `ceX[ceX>=1e25] = 10*max(ceX[ceX<1e25])` raises if no value is below 1e25 and can produce
    a negative replacement.
18. **C44 (slacks)**: from the second active-set pass on, `slnew` receives the tangential step
    twice (`sqpdfo_solve_TR_bc.py` L363 and L570).
19. **C04**: a single component with distance between D and its own gap bound can be moved
    although it would not need to (`C04_component_moved_without_need`); the last sentence of
    C04 holds for the point as a whole.
20. With default bounds a start point given as a column gets bounds of row shape and the
    set-up raises (`sqpdfo.py` L110-119). Excluded by `WellFormed`.
21. `sqpdfo_func_` hands the same list object to the objective and the constraint function;
    an objective that mutates its argument changes the point. Not modelled.
22. The stalled exit of the initial sampling returns status 0 with incomplete data; the caller
    then raises a TypeError (`max_` of None).
23. **C11**: `miter = inf` or `msimul = inf` pass the checks; with both infinite and an objective that is
    unbounded below the loop does not end (`C11_endless`).
24. **C16** fails for status 0 as well: a step without predicted reduction leaves `info.f` at the
    value of the trial point, and the first convergence test of the next pass returns (`C16_false`).
25. **C19**: a successful step after a radius above `Deltamax` sets the radius back to `Deltamax`
    (`C19_success_shrinks`).
26. **C56**: if all constraint values of the history are 0, `ceplus` (`sqpdfo_main.py` L789-L792) is not
    assigned in that pass. It then still is the empty array of L185 (`C56_zero_history`), the shapes do not fit and the
    first successful step raises (`C56_false`).
27. `options.verbose >= 4` recomputes `poised` and `Y_radius` (`sqpdfo_main.py` L479-L482), so the verbosity
    can change the result (`C55_false`: status 0 in one case, another evaluation in the other).
28. **C59** (`blls.py` L193-L205): if all variables are at bounds after the Cauchy step, `opt` is set to 0 and the
    solver reports success, without looking at the signs of the gradient (`C59_not_optimal`).
29. **C45**: with a step of length below about 1e-15 the block step can leave the bounds by about
    1e-14 (`C45_kernel_slip`, `tiny`).  `kc >= 15`, the stale `natlbt`/`natubt`, duplicates in `atlb`
    (subtracted twice from the right-hand side) are quirks kept in the model.
30. **C58**: see 17; the replacement value is 10 times the largest value below 1e25, which is smaller than
    the other values if all of them are negative.
31. **C46**: for `a = b = 0` the result is 0 even if 0 is outside the interval (`C46_zero_outside`; no caller does that).
32. **C60**: `if k == n-1: k = 0` is followed by `k += 1` (`minq.py` L412-L413), so the first variable is visited only
    once, and for one variable the search raises an IndexError.  (`Minq` is only reached if `lls_solver` is
    changed in `sqpdfo_solve_TR_bc.py` L215.)
33. **C42** (`bcdfo_solve_TR_MS.py` L196-L203): if a Cholesky factor contains NaN entries, the step of the round before is
    returned, which was rejected for its length (`C42_nan_exit`).
34. In the pseudo-hard case a step with model value below 1e-15 is replaced by zero (L331-L334) but the reported
    norm, value and gradient remain those of the discarded step; C61 therefore excludes this case.
35. **C62** (`bcdfo_solve_TR_MS.py`, gradient test at the start): a Lagrange polynomial whose gradient at the base point is
    below 1e-6 in the scaled space is taken to have no larger value than 0 in the ball, so neither the
    poisedness nor the improvement procedure sees it (`newPoint_small`; `C62_zero_gradient`: reported value at most 90,
    true value at least 100).
36. **C66** (`bcdfo_solve_TR_MS_bc.py` L144): `gplus[ind_free] + gplus_red` adds the new gradient to the old one, so the
    returned gradient is not that of the step (`C66_gradient_false`).  At the limit on the rounds (L407-L416) the step and its norm
    are set to zero but not the value (`C66_value_false`).
37. **C66** (L342-L348, L436-L443): moving all variables within 1e-5 of a bound to the bound lengthens the step by up to
    `1e-5*sqrt(n)`; from 1e-5 on the message is "error7", but the step is returned and the callers use it
    (`C66_radius_false`: three variables).
38. `bcdfo_solve_TR_MS_bc.py` L248-L253: the variables taken out for one round get the value 0 in `s_duringH` (not `s_i`)
    while `s_afterH` uses `s_i`.  Harmless, since such a variable has a bound within 1e-10 of 0 (kept in the model).
39. **C44** (`sqpdfo_solve_TR_bc.py` L379-L409): "lower bound active" (within 1e-7) is tested before "upper bound violated", so with bounds
    less than 9e-8 apart a violation of the upper bound by up to 1e-7 is not seen (`C44_false`).
40. **C67**: the restoration step may be longer than the radius (item 37); then `delta - 0.5*norm(step)` can become negative
    and the trial point is further away than twice the radius (`C67_false`: nine radii).  The caller ignores the returned radius.
41. **C68** (L356-L370, L566-L570): from the second pass on `slnew` already contains the whole tangent step when the shortened one
    is added; the returned slack variables can be negative and do not belong to the trial point (`C68_false`).
42. **C69** (L579-L582): the Hessian of the Lagrangian times the step is added to the gradient of every constraint, even of
    linear ones, so later tangent steps leave the linearised constraints (`C69_false`).
43. **C70** (L543-L550): a zero component of the tangent step gets the divisor 1e-15; if that variable is at its bound the ratio is 0 and the
    whole tangent step is dropped (`C70_stuck`).  Every pass after one that stopped at the violated bound is such a case.
44. `sqpdfo_solve_TR_bc.py` L241-L246 compares the message with 'error', 'limit' and 'boundary', none of which the solver returns;
    `active_r` depends on the length alone (kept in the model).
45. **C73** (`bcdfo_computeP.py` L109-L110): minimum-norm models (option `L2norm`, and `Regression` with fewer points than coefficients)
    minimise the norm of all coefficients, including constant and linear ones. The model of an affine function is then not that
    function: on two points of a line its slope is 0.8 of the true one at every radius, so that the optimality measures computed from it
    are wrong by 20 percent however small the interpolation set is.
46. **C74** (L299-L309): the stopping test bounds poisedness times radius by 1e-3 (`epsilon * factor_CV`, 1e-5 * 100), independently of `tol_grad`. For the
    square function and the points `±1/2000` the model gradient is zero, so the code reports convergence although the
    true gradient is 1e-3, that is 100 times the default `tol_grad` (`C74_tolerance_false`).
47. **C75** (option `Frobnorm`): with more than `n+1` and fewer than `(n+1)(n+2)/2` points, `bcdfo_computeP.py` (L101, L104: shapes that do not match, then the
    undefined name `P_i`), `bcdfo_computeLj.py` (L86: undefined `Lj`) and `bcdfo_evalL.py` (L58, L83: float size) all raise (`C75_frob_raises`).
    At linear and quadratic size `bcdfo_evalL.py` L70 has `QZ / RZ.T`, in MATLAB a right division but in NumPy elementwise: the zeros of the triangular
    factor make every value but the last infinite or NaN (`C75_frob_values_false`).
48. **C77** (mode `bfgs`): after a rejected step `sqpdfo_main.py` L1486-L1490 updates with `s = xnew - x` (L715) though `x` stays, and `y` is the change of the model
    gradients at `x`. With exact gradients `y = 0`, and the curvature along `s` is divided by 5 at every rejected step (`C77_rejected_steps`). The call after
    a repair of the set (L562) has the same mismatch: `s` is the step of the previous pass.
49. **C77**: `info.flag = fail_unexpected` of `sqpdfo_computeHessian_` is tested by none of the three callers; the next call of `sqpdfo_compute_multiplier_` sets the flag to
    success again.
50. **C78** (`minq.py` L246): `for k in find(u!=0)` is evaluated once, but `u` changes in the loop; entries that become nonzero are skipped, and the factors are those of
    another matrix (`C78_rank_one_false`, `C78_down_false`).
51. **C78** (`minq.py` L293-L300): for the first index `ldlup` changes `d[0]` only; the rest of `g` is ignored, and an indefinite matrix is not noticed
    (`C78_first_index_false`).
52. **C79** (`minq.py` L648-L654, L211): `fval` is set to `fvalnew` before `_Info` compares the two, so the third stopping rule does not test anything but the number of free
    variables. Together with the first variable being skipped (item 32), `info = 0` is returned at points that are not minimisers (`C79_info_zero_false`).
53. **C79** (L427, L661): if no variable is free and none may be freed, `coordinateSearch` leaves `self.info = -1` of `_Info`, which is returned as the result
    (`C79_info_false`).
54. **C79** (L499): a direction of nonpositive curvature is one-dimensional, so `list(p.T[0])` raises: `minq` fails for indefinite matrices (`C79_indefinite_raises`).
    If the step in a subspace is unbounded, the point becomes NaN (L540-L543 and L549-L564).
55. `minq.py` L126: without `x0` the search starts from uninitialised memory ("absolutely smallest feasible point" in the comment). L138 multiplies the diagonal
    of the caller's matrix (`numpy.mat` does not copy).
56. **C80** (`sqpdfo_prelim.py` L550): from verbosity 4 on, problems without bounds and constraints read `options.tol` and `options.df1`, which are neither documented nor set;
    if the user sets them, the initial optimality (`sqpdfo_optimality.py` L37-L41) indexes the empty multiplier vector. `'%4i'` raises for infinite or NaN limits although they
    are accepted (`C80_verbosity_raises`, `C80_unconstrained_raises`). So verbosity also changes the outcome before the main loop (compare C55).
57. **C80** (`sqpdfo_computeHessian.py` L58): `options.bfgs_restart` has no default, so the mode `bfgs` raises `AttributeError` at the first Hessian unless the user sets the
    undocumented attribute (`C80_bfgs_raises`). C31, C32 and C77 are about runs in which it is set.
58. `sqpdfo_options.py` L33: `options.fout < 0` raises `TypeError` for an open file, although `fprintf_` accepts one; `fout` is modelled as a number.
59. `sqpdfo_solve_TR_bc.py` L448-L500: when a zero step meets a negative multiplier and the fixed variables are those at a bound, the code removes one of them from the active set and then sets `finished = 1`,
   so the release has no effect (`C86_false`). Otherwise the fixed set is replaced by the variables at a bound; as shortened steps are zero once a variable is at its bound (item on C70),
   the loop can alternate between two sets until `10 n` passes are made (`C86_cycle`). The test also treats multipliers of lower bounds, which are negative at a solution in the code's sign convention, as wrong.
60. `sqpdfo_solve_TR_bc.py` L246-L260: `rpred` can be negative, because `bcdfo_solve_TR_MS_bc` moves components within `1e-5` of a bound onto it even if the function grows (`C85_false`).
61. `blls.py` L344-L347 (`C88_false`): after a failed backtracking, the variables added to the active set are `natlbt`, `natubt` of the last backtracking pass, not those which block the step. The
   next subspace solution therefore puts the wrong variables on their bounds and the residual can rise; the run of `C88_false` ends with exit code 0 and a larger residual than at its start.
   The predicted reduction `rred = rsubon - resn` (L246) is negative, so the Armijo test of the backtracking (L288) accepts increases of the residual. `C88_backtrack_false` is a first
   iteration in which the Cauchy point is discarded for a worse point; `C88_one_percent` bounds the increase.
62. `blls.py` L223-L227 (`C88_fixed`): a variable with `lb = ub` is in `atlb` and in `atub`, and its column is subtracted twice from the right-hand side.
63. `bcdfo_solve_TR_MS_bc.py` L467 (`C89_false`): the test for blocked variables in later passes compares the bounds with zero instead of with the current step, so a variable that left its bound in an
   earlier pass is fixed in between when its gradient changes sign. The solver then reports a boundary solution though the gradient of a variable away from its bounds is large.
64. `bcdfo_solve_TR_MS_bc.py` L342-L348 (`C91_false`): all components within `1e-5` of a bound are moved to it, also those which were not driven there; the model can grow.
65. `sqpdfo.py` L212, L269, L285, L323 (`C92_false`): header and end of `convhist.m` depend on a local variable `verbose` that is always 1, not on `options.verbose`, so every call that passes the first checks
   destroys the old file, also a silent one; the lines are only written for `1 <= options.verbose < 4`. The last iteration is listed twice after the statuses 5, 6 and 15.
66. `sqpdfo_prelim.py` L208, L211 with `sqpdfo.py` L110-L111 (`C95_false`): a start point given as a list of integers becomes an integer array; the value moved off a bound loses its fraction when written back, so the start
   point can violate the bounds. NaN start values, lower bounds of plus infinity and upper bounds of minus infinity pass the checks (C94).
67. `sqpdfo_main.py` L785-L789 with `sqpdfo_augmX_evalf.py` L138 (`C98_history_false`, `C98_copy_differs`): after each trial point all recorded constraint values of `1e25` or more are replaced by ten times the largest other value, so
   values of old points change when new points are evaluated. The copies in the interpolation set (`ceY`) are not changed: for a point evaluated in the improvement of the set the models use `1e25`, the history says ten times the largest value.
68. `sqpdfo_main.py` L736-L750 (`C100_constrained_false`): the penalty parameter grows during a run and nothing compares with earlier iterates, so a run with constraints may return a point with a larger objective value and a larger violation
   than the (feasible) start point; the results of the step solver are chosen freely in the witness. Without constraints this is impossible (`C100_call_partial`).
69. `sqpdfo_augmX_evalf.py` L165-L167 (`Ex.C101_limit`): objective values above `1e25` are recorded as `1e25`; a problem whose values are all above this number looks constant, and no step is accepted.
70. The models of corrected systems need not interpolate (`C103_interpolates_false`, a repeated point). Nothing in the program tells the caller that a correction took place.
71. If all points of the set coincide, the scaling divides 0 by 0 and `linalg.svd` raises `LinAlgError` (`C103_collapsed`).
72. `cond_` (`runtime.py` L267-L279) returns `np.infty` for a singular matrix. This name was removed in NumPy 2.0; there a singular matrix raises `AttributeError` instead of being corrected. The model follows the older versions.
73. `bcdfo_augment_Y_` (called at `sqpdfo_main.py` L935-L940 and L1094-L1099) adds the trial point to a growing set without looking at its Lagrange values or distance. The trial point of the first pass can be one of the sampling points (always for an increasing function
   of one variable whose step has the length of the initial radius); the set then contains a point twice and no model interpolates (`C104_growing_false`). The program goes on with the corrected system of C103.
74. `runtime.py`: the docstring of `concatenate_` (L383) exchanges the meaning of the axes. Stacking only empty blocks gives shape `(0,)` whatever their width (`C105_width_false`). `find_(a, n)` raises `IndexError` if fewer than `n` entries are true (`C106_count_false`; the calls in the code use `n = 1`
   and are safe). `max_`/`min_` with `nargout=2` can return the position of a NaN (`C106_position_false`), against the docstring ("the same as matlab").
75. **C107**: `bcdfo_repair_Y_` returns `maximprove = 0` if nothing was replaced (L258-L262), and `sqpdfo_main.py` takes this value for the poisedness (L470). The error estimate of the second test (L604) is then 0 whatever the size of the set; for the square function with points
   0.499 and -0.501 and `tol_grad = 1/500` the run ends with status 0 and a true gradient of 0.998 (`C107_report_false`). With `verbose >= 4` the poisedness is computed again (L481-L484) and the same pass does not return with status 0: the verbosity
   changes the result (`C107_verbosity`).
76. **C108**: after an accepted or rejected step `lm` is computed (`sqpdfo_main.py` L1057, L1480) before `sqpdfo_computeHessian_` stores the new gradients in `info` (L1064, L1487). If the next pass ends at once because of a limit (L216-L237), the returned `lm` belongs to the
   new point but to the old gradients: for `x^2`, `x >= 1`, start 3, one iteration, `info.g = 3` and `lm = -5` (`C108_limit_false`). At the return because of a small radius (L1465) `lm` can be that of the rejected trial point (`C108_radius_false`). `lm_computed` is always 0
   (`sqpdfo_solve_TR_bc.py` L40), so the test in L1049 has no effect.
77. **C109**: one more iteration can make the returned point worse, even without constraints: the iterate improved by the repair of the set (L468-L565) is not used as reference of the next step if the previous step was rejected (`C109_worse_false`: `-x`, limits 3 and 4,
   returned values -1e-5 and -5e-6).
78. **C110**: the program never looks whether it has evaluated a point before. The first step often is one radius along a coordinate axis, that is, a sampling point (`C110_false`: `x` from 3, points 3, 2, 2); if the step solver returns the iterate (stationary point of the infeasibility)
   every pass evaluates it again (`sqpdfo_main.py` L697-L780 has no test, `C110_zero_false`).
79. **C111**: a trial point that is in the interpolation set already, with ratio at least `eta1`, is treated in the block for rejected steps: `bcdfo_include_in_Y_` chooses the position by the distance to the trial point, which is 0 for the point itself, and if it is the only one with a nonzero
   Lagrange value there is no position (`bcdfo_include_in_Y.py` L115-L150). Then the step is rejected and the radius is reduced, although the ratio is good; or, in the branch for close points (L1336-L1423), it is taken, but `rejected` stays set and `info.f` gets the value of the
   old iterate, so the next step is compared with the old value and can increase the objective (`C111_false`: from 2 to 2.9996, ratio 1e-4 with respect to the value 2.9998 of the iterate before).
80. **C115**: the initial matrix is the identity (`sqpdfo.py` L302), so for an affine objective the first predictions are lower than the actual decrease; they are exact only once the matrix is zero (linear models in 'model' mode, C76).
   A quasi-Newton matrix of negative curvature makes the program reject steps of exact descent for an affine objective (`C115_overestimated`: objective `2 x`, step from 3 to 2.5, matrix -159992, ratio 1/20000).
81. **C16** also fails for a stop at the limit of passes or evaluations: after a rejected step `info.f` is reset to the memorised value of the iterate from which the last successful step was left, although the replacement
   in the rejected block can have moved the iterate (`C16_limit_false`: the returned point has the value 2, `info.f` is 2.9998). `C16_running_partial` says for every pass of every run what `info.f` is.
82. **C118**: the radius at which a run stops is a multiple of the norm of the iterate (`sqpdfo_main.py` L452, L1451: `stallfact * norm_(x)`), so it depends on the origin: the same problem stops with status 15 if it is moved by `1e9` and goes on if not (`C118_origin_false`, radius `1e-9`).
83. **C118**: the bound test in `sqpdfo_find_smallf.py` L92 compares every component with every bound (broadcasting of a row and a column). Moving one variable together with its bounds changes its answers: in `C118_bounds_false` the better point of the set is returned with status 0 before the move
   and the start point, also with status 0, after it.
84. **C119**: the order of the variables matters, because `sqpdfo_find_smallf_` never chooses the second point of the set (item 8), and the second point of the initial set belongs to the first variable. With two variables and an objective equal to one of them the run returns the best initial
   point if it is the second variable, and the start point, with status 0, if it is the first (`C119_order_false`).
85. **C120**: looser tolerances can need more evaluations and end with a worse status. A measure within the looser tolerance starts the improvement of the interpolation set (`sqpdfo_main.py` L283-L284), which evaluates further points before the run goes on
   (`C120_more_false`: status 6 after 4 evaluations with `tol_grad = 1e-3`, status 0 after 3 evaluations with `1e-5`).
86. **C120**: `tol_feas/10` and `tol_grad/10` are also the precisions of the restoration and tangent steps (`sqpdfo_main.py` L660-L663), but only for problems with constraints; without constraints the precision is the constant `1e-7`
   (`sqpdfo_solve_TR_bc.py` L67-L87). The comment calls them initial precisions; they are never changed later.
87. **C121**: a constraint value of size `1e25` is replaced by ten times the largest smaller value of *all* constraints (`sqpdfo_prelim.py` L382, `sqpdfo_main.py` evaluation of the trial point), with its sign. The result is not a large violation:
   with constraints `c1`, `c2 = x - 2` and `c1 = inf` at the trial point the replaced value is `10*max(0, x - 2, ...) = 0`, and the step is accepted although `c1` is infinite there; with `2 - x` instead it is rejected (`C121_huge_false`).
88. `compare_array` (`runtime.py` L510-L537), with which the tests are written: an empty array agrees with every array that has one entry, `[inf, 7]` agrees with `[inf]` (while `[7, inf]` raises `IndexError`), shapes are ignored, and a single number agrees with an array of
    copies (`C122_shape_false`, `C122_infinite_false`, `C122_transposed_false`, `C122_single`). An array does not agree with itself if it contains NaN (`C122_self`). The comment above L534 says `|x[i]| <= 0`, the code uses `abs_tol`. The relative error refers to the first argument (`C122_symmetric_false`).
89. **C123**: the initial points always lie at smaller values of the variables (`x0 - Delta*e_j`), so the program prefers one direction: for the objective `x2` an initial point improves the start point, for `-x2` none does; both runs end with status 0, the second at the start point
    (`C123_mirror_false`). The bound test of `sqpdfo_find_smallf.py` L92 (item 83) also depends on the sign of a single variable (`C123_bounds_false`).
90. **C124**: calls that return before the main loop (statuses 1, 2, 3) never reach `sqpdfo_finish_`, so its texts for 1 and 2 are never printed (`sqpdfo.py` L285-L291, `C124_early`). `options.fout` accepts every nonnegative integer, but `fprintf_` writes only for 1 and 2; for others each line is
    replaced by a warning (`C124_fout_false`). The printed final value is `fx`, the returned `info.f` may be that of a refused trial point (item of C16, `C124_value_false`). `sqpdfo.py` L363 passes the vector as a second text, so it is printed by `str`, not formatted.
