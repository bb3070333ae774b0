{"id": "C01", "title": "Accepted iterates are feasible", "statement": "Every point that Optimizer.minimize adopts as its current point was compared against the bounds when adopted and satisfies lb <= x <= ub coordinate by coordinate and is finite; on a normal return the returned x satisfies lb <= x <= ub.", "quantifier": "all objective functions (also nondeterministic or returning non-finite values), all step proposals, all options, all bounds, all starting points, all iteration counts; any arithmetic with the listed IEEE order laws for the adoption check, exact arithmetic for the returned (nudged) point", "why_tests_cant": "tests look at a few bounded Rosenbrock runs; a violation needs a particular objective and step history", "anchors": ["fides/minimize.py:Optimizer.minimize", "fides/minimize.py:Optimizer.update", "fides/minimize.py:Optimizer.check_in_bounds", "fides/minimize.py:Optimizer.make_non_degenerate"]}
{"id": "C02", "title": "The starting point is moved only off the bounds, and only slightly", "statement": "For a feasible x0 the point where the objective is first evaluated differs from x0 by at most 1e2*2^-52 in each coordinate, is feasible again, equals x0 in coordinates at least that far from both bounds, and has that margin to both bounds whenever the box is at least three margins wide.", "quantifier": "all dimensions, all boxes including infinite, narrow and empty-interior ones, all feasible x0 (exact arithmetic)", "why_tests_cant": "the number of boxes is infinite and the interesting ones have width near 1e-14", "anchors": ["fides/minimize.py:Optimizer.make_non_degenerate"]}
{"id": "C03", "title": "An infeasible starting point is refused before the objective is called", "statement": "If some coordinate of x0 violates a bound by more than the degeneracy margin, or x0 has a non-finite coordinate, minimize raises RuntimeError, sets exitflag EXCEEDED_BOUNDARY and never calls the objective; if x0 is feasible it never raises this error at the initial point.", "quantifier": "all x0, bounds and objectives", "why_tests_cant": "needs every location of the violating coordinate and every objective", "anchors": ["fides/minimize.py:Optimizer.minimize", "fides/minimize.py:Optimizer.check_in_bounds"]}
{"id": "C04", "title": "The objective is never evaluated outside the bounds", "statement": "Every argument passed to the objective during minimize has each coordinate either NaN or inside [lb, ub], and after the initial check minimize never fails with EXCEEDED_BOUNDARY; this holds for all three subspace solvers and all five step-back strategies, whatever the eigen-, least-squares and root-finding routines return.", "quantifier": "all objectives, feasible x0, theta_max in (0,1], dimensions, histories, and all behaviours of the external numerical routines (exact arithmetic)", "why_tests_cant": "the claim is about every trial point of every run, including reflected and truncated proposals that are rarely selected", "anchors": ["fides/minimize.py:Optimizer.minimize", "fides/trust_region.py:trust_region", "fides/steps.py:Step.step_back", "fides/steps.py:TRStepReflected", "fides/steps.py:TRStepTruncated", "fides/stepback.py:stepback_reflect", "fides/stepback.py:stepback_truncate"]}
{"id": "C05", "title": "fval_min is the best value ever seen", "statement": "After a normal return fval_min equals the least finite objective value over all evaluations of the run (accepted or rejected) and grad_min is the gradient returned by the first evaluation that attained it; fval_min <= returned fval.", "quantifier": "all objectives, step proposals, options and run lengths; any arithmetic", "why_tests_cant": "depends on the whole history of accepted and rejected evaluations", "anchors": ["fides/minimize.py:Optimizer.track_minimum", "fides/minimize.py:Optimizer.minimize"]}
{"id": "C06", "title": "x_min is the point where fval_min was attained", "statement": "x_min is the argument of the evaluation that produced fval_min and grad_min. (In the code x_min aliases the current point, which is nudged in place after acceptance; so the claim holds up to that nudge, and exactly when the best point lies at least the degeneracy margin inside the bounds.)", "quantifier": "all runs", "why_tests_cant": "in-place aliasing shows only when the best accepted point is within 2e-14 of a bound", "anchors": ["fides/minimize.py:Optimizer.track_minimum", "fides/minimize.py:Optimizer.update", "fides/minimize.py:Optimizer.make_non_degenerate"]}
{"id": "C07", "title": "Accepted objective values strictly decrease", "statement": "Each accepted step has a finite objective value strictly below the previous current value, so the returned fval is <= the initial value, and < it if any step was accepted; rejected steps leave x, fval, grad and hess unchanged.", "quantifier": "all objectives, proposals, option values and run lengths; any arithmetic with the listed IEEE sign laws", "why_tests_cant": "needs all combinations of ratio, augmentation term and predicted decrease, including non-finite ones", "anchors": ["fides/minimize.py:Optimizer.update_tr_radius", "fides/minimize.py:Optimizer.update"]}
{"id": "C08", "title": "The returned tuple describes one evaluation", "statement": "The returned (fval, grad) were returned by the objective in one single call; the returned x is the argument of that call (up to the in-place degeneracy nudge); without Hessian approximation the returned hess comes from the same call.", "quantifier": "all runs that return normally", "why_tests_cant": "mixing fields of two evaluations shows only on runs with particular accept/reject patterns", "anchors": ["fides/minimize.py:Optimizer.minimize", "fides/minimize.py:Optimizer.update"]}
{"id": "C09", "title": "The evaluation budget is respected and minimize terminates", "statement": "minimize performs at most max(0, ceil(maxiter)) iterations and calls the objective exactly once per iteration plus once at the start, whatever the objective, the clock and the step proposals do (provided each proposal computation terminates).", "quantifier": "all objectives, clocks, proposals, all finite maxiter", "why_tests_cant": "termination for every objective cannot be sampled", "anchors": ["fides/minimize.py:Optimizer.check_continue", "fides/minimize.py:Optimizer.minimize"]}
{"id": "C10", "title": "The exit flag tells the true reason", "statement": "On normal return exitflag is MAXITER only if the iteration count reached maxiter, MAXTIME only if the remaining time was below the average iteration time, DELTA_TOO_SMALL only if the trust radius is below machine precision, FTOL/XTOL/GTOL only if the corresponding test held at the last trial point; when an exception is raised for non-finite values or bounds the flag is NOT_FINITE or EXCEEDED_BOUNDARY.", "quantifier": "all runs, option values and clocks", "why_tests_cant": "needs every order in which several stopping reasons become true", "anchors": ["fides/minimize.py:Optimizer.check_convergence", "fides/minimize.py:Optimizer.check_continue", "fides/minimize.py:Optimizer.check_finite", "fides/minimize.py:Optimizer.check_in_bounds"]}
{"id": "C11", "title": "Positive exit flag if and only if converged", "statement": "On normal return the exitflag is never DID_NOT_RUN, its numeric value is positive exactly when opt.converged is true and negative otherwise.", "quantifier": "all runs", "why_tests_cant": "flag and converged are written in different places; all exits must agree", "anchors": ["fides/constants.py:ExitFlag", "fides/minimize.py:Optimizer.check_convergence", "fides/minimize.py:Optimizer.check_continue"]}
{"id": "C12", "title": "A convergence flag describes the returned point", "statement": "If minimize reports GTOL, the returned gradient satisfies ||grad|| <= gatol or ||grad|| <= grtol*|fval|. (False in the code: the test is applied to the trial point even when the step is rejected; it holds when the last step was accepted.)", "quantifier": "all runs ending with GTOL", "why_tests_cant": "requires a rejected trial point with a small gradient, e.g. near a maximum", "anchors": ["fides/minimize.py:Optimizer.check_convergence", "fides/minimize.py:Optimizer.minimize"]}
{"id": "C13", "title": "FTOL convergence only on an accepted step", "statement": "If mu >= 0, a run that ends with FTOL accepted its last step, and the returned fval and the previous fval differ by less than fatol + frtol*|previous fval|.", "quantifier": "all runs ending with FTOL; any arithmetic", "why_tests_cant": "acceptance and convergence are decided by different code on shared state", "anchors": ["fides/minimize.py:Optimizer.check_convergence", "fides/minimize.py:Optimizer.update_tr_radius"]}
{"id": "C14", "title": "Non-finite trial values never abort or corrupt a run", "statement": "If the objective returns a non-finite value at a trial point, the step is rejected, x, fval, grad, hess and the recorded minimum are unchanged, and the new radius is the smaller of gamma1*delta and ||step||/4.", "quantifier": "all histories and all non-finite return values", "why_tests_cant": "needs failures injected at every position of a run", "anchors": ["fides/minimize.py:Optimizer.update_tr_radius", "fides/minimize.py:Optimizer.minimize", "fides/minimize.py:Optimizer.track_minimum"]}
{"id": "C15", "title": "Finite value with non-finite derivatives is an error", "statement": "If any evaluation returns a finite value but a non-finite gradient or (when returned) Hessian entry, or the first evaluation is non-finite, minimize raises RuntimeError with exitflag NOT_FINITE; hence a normal return has finite fval and grad, and every accepted evaluation was finite throughout.", "quantifier": "all histories", "why_tests_cant": "needs failures injected at every position", "anchors": ["fides/minimize.py:Optimizer.check_finite", "fides/minimize.py:Optimizer.minimize"]}
{"id": "C16", "title": "Trust radius follows the documented rule", "statement": "In every iteration the radius is multiplied by gamma2 iff ratio >= eta and the step is not interior, set to min(gamma1*radius, ||step||/4) iff otherwise ratio <= mu or the trial value is non-finite, and unchanged otherwise; so it never exceeds delta_init*gamma2^k after k iterations (gamma2 >= 1, gamma1 <= 1).", "quantifier": "all runs and option values", "why_tests_cant": "a bound for every number of iterations and every accept pattern", "anchors": ["fides/minimize.py:Optimizer.update_tr_radius"]}
{"id": "C17", "title": "Persistent rejection stops the run", "statement": "With gamma1 < 1, mu >= 0 and real ratios, k consecutive rejected steps shrink the radius by at least gamma1^k, so after finitely many consecutive rejections (a bound depending only on radius and gamma1) minimize stops with DELTA_TOO_SMALL or an earlier reason even if maxiter is unbounded. (False when the ratio is NaN: then nothing changes.)", "quantifier": "all objectives and proposals", "why_tests_cant": "an unbounded run of rejections cannot be tested", "anchors": ["fides/minimize.py:Optimizer.update_tr_radius", "fides/minimize.py:Optimizer.check_continue"]}
{"id": "C18", "title": "Runs are independent", "statement": "Calling minimize twice on one Optimizer gives the second run the same result as on a fresh Optimizer (deterministic objective and clock). (False for HybridFixed/HybridFraction after they switched: the switch is not reset; true for every other scheme.)", "quantifier": "all earlier runs, whatever they did or however they failed", "why_tests_cant": "leaks through state need a specific first run", "anchors": ["fides/minimize.py:Optimizer._reset", "fides/minimize.py:Optimizer.minimize", "fides/hessian_approximation.py:HybridFixed", "fides/hessian_approximation.py:HessianApproximation._init_mat"]}
{"id": "C19", "title": "The time budget rule", "statement": "An iteration is started only if the time used so far plus the average time per iteration so far does not exceed maxtime.", "quantifier": "all clock behaviours, all iteration counts", "why_tests_cant": "wall-clock schedules cannot be enumerated", "anchors": ["fides/minimize.py:Optimizer.check_continue"]}
{"id": "C20", "title": "The 1D subproblem is solved exactly", "statement": "For ||s0|| <= delta and s nonzero the returned step length t satisfies ||s0 + t s|| <= delta and minimises the quadratic model over all t with ||s0 + t s|| <= delta. (Exception: s0 on the sphere and s orthogonal to it gives NaN.)", "quantifier": "all dimensions, matrices (not only definite or symmetric), vectors, radii (exact arithmetic)", "why_tests_cant": "the optimum is over a continuum of inputs and steps", "anchors": ["fides/subproblem.py:solve_1d_trust_region_subproblem", "fides/subproblem.py:get_1d_trust_region_boundary_solution"]}
{"id": "C21", "title": "The n-D subproblem solution respects the radius", "statement": "The step returned by solve_nd_trust_region_subproblem has norm <= delta + 2^-26, for any behaviour of the root finders, when labelled posdef or indef, or when hard and the secular test was non-negative.", "quantifier": "all dimensions, symmetric matrices with an orthonormal eigendecomposition, gradients, radii, root-finder results", "why_tests_cant": "continuum of inputs; failing root finders are rare", "anchors": ["fides/subproblem.py:solve_nd_trust_region_subproblem", "fides/subproblem.py:slam", "fides/subproblem.py:secular"]}
{"id": "C22", "title": "The n-D subproblem is solved exactly", "statement": "The step returned by solve_nd_trust_region_subproblem minimises g.s + s.B.s/2 over ||s|| <= delta when the root finder is exact. (False: for indefinite B and a gradient with a small component along the lowest eigenvector the secular test is evaluated without that pole, the hard case is entered and an ascent step may be returned; true in the posdef, indef and genuine hard cases.)", "quantifier": "all dimensions, symmetric matrices, gradients and radii", "why_tests_cant": "optimality over a ball", "anchors": ["fides/subproblem.py:solve_nd_trust_region_subproblem", "fides/subproblem.py:secular", "fides/subproblem.py:slam"]}
{"id": "C23", "title": "Step-back takes the largest safe fraction", "statement": "A proposed step from a feasible point is multiplied by min(1, theta*t) where t is the largest t such that x + t s is feasible (infinity if never blocked); direction is kept, and with theta < 1 from an interior point the result is strictly inside the bounds.", "quantifier": "all points, steps, bounds, theta", "why_tests_cant": "continuum; blocking patterns of many coordinates", "anchors": ["fides/steps.py:Step.step_back"]}
{"id": "C24", "title": "The best candidate is chosen", "statement": "The proposal used has the least predicted model value of all candidates computed for the chosen strategy (first one on ties) when no predicted value is NaN; a NaN candidate is always preferred.", "quantifier": "all candidate lists", "why_tests_cant": "all orders, ties and NaN positions", "anchors": ["fides/trust_region.py:trust_region"]}
{"id": "C25", "title": "The predicted value belongs to the step taken", "statement": "For every proposal the predicted value equals the quadratic model evaluated at the scaled version of the step actually added to x: s + s0 = D (ss + ss0) and qpval = q(ss + ss0). (False for Steihaug CG after step-back: the step is scaled as a whole but only a part of the scaled step is.)", "quantifier": "all strategies, solvers, inputs", "why_tests_cant": "a mismatch only shows in the ratio of bounded CG runs", "anchors": ["fides/steps.py:Step.calculate", "fides/steps.py:CGStep.calculate", "fides/steps.py:TRStepReflected", "fides/steps.py:TRStepTruncated", "fides/trust_region.py:trust_region"]}
{"id": "C26", "title": "Proposals stay in the trust region", "statement": "Every proposal satisfies ||ss + ss0|| <= delta (+2^-26). (True for trust-region, gradient, reflected, Steihaug and full-space truncated proposals; false for truncated proposals in the 2D subspace, whose reduced basis is normalised but not orthogonal.)", "quantifier": "all strategies, solvers, inputs (exact arithmetic)", "why_tests_cant": "continuum of inputs", "anchors": ["fides/steps.py:Step", "fides/steps.py:TRStepTruncated", "fides/steps.py:TRStepReflected", "fides/steps.py:TRStepSteihaug"]}
{"id": "C27", "title": "Step-back loops terminate", "statement": "The truncation loop ends after at most n truncations and the reflection loop after at most n reflections, for every finite subproblem solution.", "quantifier": "all inputs, all subproblem solver results", "why_tests_cant": "termination of an unbounded while loop", "anchors": ["fides/stepback.py:stepback_truncate", "fides/stepback.py:stepback_reflect"]}
{"id": "C28", "title": "Steihaug CG terminates and never returns early without a step", "statement": "The while-True loop of the Steihaug solver ends after at most n iterations in exact arithmetic for every symmetric model Hessian and nonzero scaled gradient; its early-return branch that leaves the coefficients unset is never taken.", "quantifier": "all dimensions, symmetric matrices, gradients, radii", "why_tests_cant": "termination of an unbounded loop for every matrix", "anchors": ["fides/steps.py:TRStepSteihaug.conj_grad", "fides/steps.py:CGStep.calculate"]}
{"id": "C29", "title": "Affine scaling characterises stationarity", "statement": "At a feasible point the scaled gradient is zero iff the point satisfies the first-order (KKT) conditions of the bound-constrained problem; v*g >= 0 componentwise; theta lies in [theta_max, 1]; variables without the relevant bound are not scaled (|v| = 1).", "quantifier": "all points, gradients, bounds", "why_tests_cant": "all sign/bound combinations in every dimension", "anchors": ["fides/minimize.py:Optimizer.get_affine_scaling", "fides/minimize.py:Optimizer.minimize"]}
{"id": "C30", "title": "Fixed variables never move", "statement": "A coordinate with lb = ub = x0 has the same value in every evaluation and in the result (exact arithmetic).", "quantifier": "all runs, strategies, solvers, external routines", "why_tests_cant": "all runs", "anchors": ["fides/minimize.py:Optimizer.get_affine_scaling", "fides/minimize.py:Optimizer.make_non_degenerate", "fides/steps.py:Step"]}
{"id": "C31", "title": "Broyden-class updates satisfy the secant equation", "statement": "After an update of BFGS, DFP or Broyden(phi) with y.s > 0 and a positive definite approximation (or merely nonzero denominators) the new approximation maps s to y, for every phi; with y.s <= 0 and enforce_curv_cond the approximation is unchanged.", "quantifier": "all dimensions, phi, s, y, matrices (exact arithmetic)", "why_tests_cant": "continuum of inputs", "anchors": ["fides/hessian_approximation.py:broyden_class_update", "fides/hessian_approximation.py:Broyden", "fides/hessian_approximation.py:BFGS", "fides/hessian_approximation.py:DFP"]}
{"id": "C32", "title": "Symmetry is preserved", "statement": "Starting from a symmetric initial approximation, every sequence of Broyden-class or SR1 updates and every structured update (with symmetric Gauss-Newton part) keeps the approximation symmetric; BG in general does not.", "quantifier": "all update histories", "why_tests_cant": "all histories", "anchors": ["fides/hessian_approximation.py:broyden_class_update", "fides/hessian_approximation.py:SR1", "fides/hessian_approximation.py:SSM", "fides/hessian_approximation.py:TSSM", "fides/hessian_approximation.py:GNSBFGS", "fides/hessian_approximation.py:BG"]}
{"id": "C33", "title": "BFGS/DFP/Broyden keep positive definiteness", "statement": "With enforce_curv_cond and phi >= 0, starting from the identity or any symmetric positive definite hess0, the approximation is finite, symmetric positive definite after every sequence of updates with arbitrary finite (s, y), including zero or negative-curvature pairs.", "quantifier": "all histories, dimensions, phi >= 0", "why_tests_cant": "all histories of steps", "anchors": ["fides/hessian_approximation.py:Broyden", "fides/hessian_approximation.py:broyden_class_update", "fides/hessian_approximation.py:HessianApproximation._init_mat"]}
{"id": "C34", "title": "SR1 update is safe", "statement": "An SR1 update either leaves the matrix unchanged (degenerate denominator) or makes it satisfy the secant equation, and never produces non-finite entries. (False when s = 0 or the secant equation already holds: 0/0 makes the whole matrix NaN.)", "quantifier": "all dimensions, matrices, s, y", "why_tests_cant": "the exact-secant case occurs on quadratic objectives", "anchors": ["fides/hessian_approximation.py:SR1"]}
{"id": "C35", "title": "Broyden good/bad updates satisfy the secant equation", "statement": "After update with s != 0 BG maps s to y and changes the matrix least in Frobenius norm; BB with y.s > 0 is an update of the approximation. (False for BB: it overrides update and never changes the matrix.)", "quantifier": "all dimensions, matrices, s, y", "why_tests_cant": "continuum; BB is excluded from the test assertions", "anchors": ["fides/hessian_approximation.py:BG", "fides/hessian_approximation.py:BB"]}
{"id": "C36", "title": "Structured updates satisfy their secant equations", "statement": "After an SSM, TSSM or GNSBFGS update with admissible curvature the new approximation equals Gauss-Newton part plus structured part and satisfies (C + A) s = y^S = yb + C s (GNSBFGS: A s = yb), with ||r|| scaling for TSSM.", "quantifier": "all inputs with nonzero denominators", "why_tests_cant": "continuum of inputs", "anchors": ["fides/hessian_approximation.py:SSM", "fides/hessian_approximation.py:TSSM", "fides/hessian_approximation.py:GNSBFGS"]}
{"id": "C37", "title": "GNSBFGS stays positive definite", "statement": "With enforce_curv_cond, hybrid_tol >= 0, positive semidefinite Gauss-Newton parts and nonzero residuals the GNSBFGS approximation is positive definite after every sequence of updates; in particular in every run on a least-squares problem whose residuals vanish nowhere, the Hessian used in every iteration and the returned one are positive definite.", "quantifier": "all histories", "why_tests_cant": "all histories", "anchors": ["fides/hessian_approximation.py:GNSBFGS"]}
{"id": "C38", "title": "Hybrid switching is irreversible and timed", "statement": "HybridFixed/HybridFraction use the user Hessian until, and the iterative approximation from, the first update after their switching condition was met; once switched they never switch back; the iterative scheme is updated from the start.", "quantifier": "all update histories", "why_tests_cant": "all histories", "anchors": ["fides/hessian_approximation.py:HybridFixed", "fides/hessian_approximation.py:HybridFraction", "fides/hessian_approximation.py:HybridSwitchApproximation"]}
{"id": "C39", "title": "FX chooses by residual reduction", "statement": "FX uses the Gauss-Newton matrix iff the relative residual reduction is at least hybrid_tol, otherwise the iterative update of the last matrix.", "quantifier": "all residual histories", "why_tests_cant": "all histories", "anchors": ["fides/hessian_approximation.py:FX"]}
{"id": "C40", "title": "get_diff is the change of get_mat", "statement": "For every scheme get_mat after update = get_mat before + get_diff. (False for BB.)", "quantifier": "all schemes, histories", "why_tests_cant": "all histories", "anchors": ["fides/hessian_approximation.py:HessianApproximation.get_diff", "fides/hessian_approximation.py:IterativeHessianApproximation", "fides/hessian_approximation.py:FX", "fides/hessian_approximation.py:SSM"]}
{"id": "C41", "title": "Initial approximation is checked and used", "statement": "minimize starts from the identity without hess0, from hess0 when given, from the objective's Hessian for hess0='hess'; a wrong first dimension raises ValueError and set_mat refuses other shapes; the structured part of SSM, TSSM and GNSBFGS always starts at machine spacing times the identity.", "quantifier": "all shapes and inputs", "why_tests_cant": "all shapes", "anchors": ["fides/hessian_approximation.py:HessianApproximation._init_mat", "fides/hessian_approximation.py:HessianApproximation.set_mat", "fides/minimize.py:Optimizer.minimize"]}
{"id": "C42", "title": "Wrong number of return values is refused", "statement": "The objective must return a tuple of exactly 3 values without Hessian approximation or with a Hessian-based hybrid, else exactly 2; anything else raises ValueError at that evaluation. The values are used in the order value, gradient, Hessian.", "quantifier": "all return values, all schemes, all positions in a run", "why_tests_cant": "all return values at every iteration", "anchors": ["fides/minimize.py:FunEvaluator", "fides/minimize.py:Optimizer.__init__"]}
{"id": "C43", "title": "Residual mode is least squares", "statement": "With resfun the value, gradient and Hessian used are sum r^2/2, J^T r and J^T J; the value is >= 0 and the Hessian symmetric positive semidefinite. resfun=True without a residual-based scheme never yields a usable evaluation The residuals and derivatives handed to the Hessian approximation are those the objective returned.", "quantifier": "all residuals and sensitivities", "why_tests_cant": "continuum", "anchors": ["fides/minimize.py:FunEvaluator.__call__", "fides/minimize.py:Optimizer.__init__"]}
{"id": "C44", "title": "Shape check is exact", "statement": "checkdims passes iff fval is a scalar, grad a 1-d array of len(x), and hess absent or a square 2-d array of size len(x); otherwise ValueError.", "quantifier": "all shapes", "why_tests_cant": "all shapes and ranks", "anchors": ["fides/minimize.py:Funout.checkdims"]}
{"id": "C45", "title": "Option validation is exact", "statement": "validate_options accepts a dict iff each key is a known field and each value has the documented type (integral floats allowed for maxiter); unknown keys raise ValueError. Invalid enum names are refused. (False when the key is given as plain string: any string is accepted as solver or strategy.)", "quantifier": "all option dicts", "why_tests_cant": "all dicts", "anchors": ["fides/constants.py:validate_options"]}
{"id": "C46", "title": "Incompatible configuration is refused at construction", "statement": "Optimizer(...) raises ValueError iff resfun disagrees with the scheme, options are invalid, or Steihaug is combined with refinement.", "quantifier": "all configurations", "why_tests_cant": "all configurations", "anchors": ["fides/minimize.py:Optimizer.__init__"]}
{"id": "C47", "title": "History is complete and atomic", "statement": "With history_file set, a run that returns normally adds exactly one group named by its start id in which every recorded quantity has exactly one entry per iteration; a run that raises during optimization leaves the file unchanged; a repeated start id raises and leaves earlier groups intact.", "quantifier": "all runs, sequences of runs, crash points inside a run", "why_tests_cant": "all crash points and sequences of runs", "anchors": ["fides/minimize.py:Optimizer.track_history", "fides/minimize.py:Optimizer.minimize"]}
{"id": "C48", "title": "Loggers are distinct", "statement": "Sequential calls of create_logger return loggers with pairwise distinct names and exactly one handler each. (False under concurrent calls: the counter update and the name lookup are not atomic.)", "quantifier": "all numbers of calls, all thread interleavings", "why_tests_cant": "all interleavings", "anchors": ["fides/logging.py:create_logger"]}
{"id": "C49", "title": "The 2D subspace is orthonormal", "statement": "The basis built by the 2D solver has orthonormal columns whenever its first direction is nonzero, so coefficient norm equals step norm.", "quantifier": "all inputs, all behaviours of eig/lstsq", "why_tests_cant": "continuum", "anchors": ["fides/steps.py:TRStep2D", "fides/steps.py:normalize"]}
{"id": "C50", "title": "Step-back never predicts an increase", "statement": "Whenever a proposal was cut at the bounds (and n > 1, no NaN candidate) the selected proposal has predicted value <= 0, and < 0 if the scaled gradient is nonzero. With one variable this holds for every proposal, cut or not, and its predicted value is a number (if the scaled gradient is nonzero, and for the default solver the scaled Hessian is not exactly zero).", "quantifier": "all inputs, strategies, solvers", "why_tests_cant": "continuum", "anchors": ["fides/trust_region.py:trust_region", "fides/steps.py:GradientStep"]}
{"id": "C51", "title": "Unbounded problems are plain trust-region problems", "statement": "If all bounds are infinite then scaling is the identity, no step is cut back, exactly one candidate is computed and the degeneracy nudge does nothing.", "quantifier": "all inputs", "why_tests_cant": "continuum", "anchors": ["fides/minimize.py:Optimizer.get_affine_scaling", "fides/steps.py:Step.step_back", "fides/trust_region.py:trust_region", "fides/minimize.py:Optimizer.make_non_degenerate"]}
{"id": "C52", "title": "Step proposals are finite", "statement": "For finite current point, gradient, Hessian, positive radius and feasible point, every step proposal has finite entries, so the objective is never called with NaN. (False: the one-variable Newton division by a zero model Hessian entry gives NaN; see also the zero scaled gradient in Steihaug CG. With one variable proposals are numbers whenever the scaled gradient is nonzero and, for the default solver, the scaled Hessian is.)", "quantifier": "all finite inputs of the step computation", "why_tests_cant": "the failure needs an exactly singular scaled Hessian in one variable, random tests never hit it; and the claim quantifies over all inputs", "anchors": ["fides/steps.py:TRStep2D", "fides/subproblem.py:solve_1d_trust_region_subproblem"]}
{"id": "C53", "title": "Recording the history does not influence the optimization", "statement": "Switching on history_file with an unused start id changes nothing but the recorded history and the added group: the call returns the same values or raises the same exception, the optimizer has the same attributes and the objective is called with the same arguments in the same order (provided the eigenvalue and condition number routines used for recording do not raise).", "quantifier": "all objectives, options, starting points, approximations, earlier uses of the optimizer", "why_tests_cant": "a test compares one pair of runs; the claim ranges over all runs, including the ones that raise", "anchors": ["fides/minimize.py:Optimizer.track_history", "fides/minimize.py:Optimizer.minimize"]}
{"id": "C54", "title": "Broyden-class updates are the textbook updates", "statement": "The matrix after a DFP update is (I - y s^T / y^T s) B (I - s y^T / y^T s) + y y^T / y^T s; the inverse of the matrix after a BFGS update is the dual formula applied to the inverse of B; and the Broyden update with parameter phi is the combination (1-phi) BFGS + phi DFP.", "quantifier": "all dimensions, symmetric (for BFGS invertible) matrices, steps and gradient differences with nonzero curvature", "why_tests_cant": "identities of rational functions over all matrices; a sampled check only bounds the error at the samples", "anchors": ["fides/hessian_approximation.py:broyden_class_update", "fides/hessian_approximation.py:BFGS", "fides/hessian_approximation.py:DFP"]}
{"id": "C55", "title": "Geometry of reflected and truncated candidates", "statement": "When a candidate step is cut back, the reflected candidate starts at the point where the full step first meets a bound (or at its end if that comes later) and moves along the same direction with the sign reversed in exactly the coordinates that meet their bound there; the truncated candidate puts exactly those coordinates at the fraction theta of their way to the bound, does not move them further and starts the others where the previous step started. The candidates considered are: the subproblem solution alone if it was not cut back; otherwise also the gradient step and those of the strategy, where repeated reflections go on until a candidate is not cut back or n were made, and truncations until a candidate is not cut back or no direction is left.", "quantifier": "all problems, points, bounds, candidate chains", "why_tests_cant": "which coordinates are blocked depends on ties between real numbers and on the whole chain of earlier candidates", "anchors": ["fides/steps.py:TRStepReflected", "fides/steps.py:TRStepTruncated", "fides/steps.py:Step.step_back"]}
{"id": "C56", "title": "The approximation is updated with the accepted step", "statement": "In every accepted iteration the Hessian approximation is updated exactly once, with the difference of the points and the difference of the gradients of this iteration (and the Gauss-Newton data where the scheme needs them), and the model Hessian of the next iteration is the updated matrix; so for the Broyden class it satisfies the secant equation of the accepted step or is unchanged when curvature is not positive, and with enforce_curv_cond, phi >= 0 and a positive definite start the model Hessian of every iteration of every run is symmetric positive definite. With SSM, TSSM and GNSBFGS on least-squares problems it satisfies the structured secant equation of the accepted step, B' d = J(x')^T J(x') d + (J(x') - J(z))^T r(x') (with the last term scaled by ||r(x')||/||r(z)|| for TSSM and GNSBFGS), where r and J are what the objective returned at the new point x' and at the point z of the last accepted evaluation.", "quantifier": "all runs, iterations, objectives, schemes", "why_tests_cant": "an invariant over all iterations of all runs", "anchors": ["fides/minimize.py:Optimizer.update", "fides/minimize.py:Optimizer.minimize", "fides/hessian_approximation.py:IterativeHessianApproximation.update"]}
{"id": "C57", "title": "Options have the value the user wrote or the documented default", "statement": "Each option of an accepted options dict is looked up under its enum member or its name alike; the value used by the run is the one written, and the documented default if the option is not mentioned; history is recorded exactly when a non-empty file name is given.", "quantifier": "all option dicts", "why_tests_cant": "all combinations of keys, spellings and values", "anchors": ["fides/minimize.py:Optimizer.get_option", "fides/constants.py:DEFAULT_OPTIONS"]}
{"id": "C58", "title": "Guarantees in double precision", "statement": "In IEEE double precision with round to nearest (any tie rule, any summation order in dot products) a run that returns gives back value and gradient of one call whose argument is finite and within the bounds, a value not above the first one, fval_min the least finite value seen, one call per iteration plus one, the budget respected and an exit flag whose sign tells converged; accepted values strictly decrease and non-finite trial values are rejected.", "quantifier": "all objectives, inputs, tie rules, summation orders, proposals, clocks", "why_tests_cant": "must hold for every rounding of every operation on every path", "anchors": ["fides/minimize.py:Optimizer.minimize"]}
{"id": "C59", "title": "In double precision the objective is never evaluated outside the bounds", "statement": "Also with rounding, every argument passed to the objective lies within the bounds. (False in the code: the step-back factor rounds to 1 for a tiny gradient, the product rounds past the bound; the objective is called outside the bounds and minimize then raises RuntimeError EXCEEDED_BOUNDARY although the problem and start are feasible. True for every iteration from a point within the bounds with theta at most 1 - 2^-50, a finite uncut step and a factor alpha that is 0 or at least 2^-1021, if the step is not a reflection or truncation: always with one variable or the strategy 'refine'.)", "quantifier": "all objectives, bounds, inputs", "why_tests_cant": "needs particular roundings on one path of the program", "anchors": ["fides/stepback.py", "fides/steps.py:Step.step_back", "fides/minimize.py:Optimizer.minimize"]}
{"id": "C60", "title": "In double precision a coordinate fixed by lb = ub = x0 is accepted", "statement": "A feasible start with a coordinate fixed by equal bounds is accepted for every double value. (False in the code: the nudge x - eps + eps does not return to x for many values, e.g. 9 + 2^-49 or 2^-100; minimize raises RuntimeError EXCEEDED_BOUNDARY. True for 0 and values in [100*2^-52, 8).)", "quantifier": "all doubles, tie rules, objectives, options", "why_tests_cant": "depends on the last bits of the value", "anchors": ["fides/minimize.py:Optimizer.make_non_degenerate", "fides/minimize.py:Optimizer.check_in_bounds"]}
{"id": "C61", "title": "In double precision the first call is strictly within the bounds", "statement": "From a feasible start in a box of positive width the objective is first called strictly within the bounds. (False in the code: at a bound of magnitude 2^20 the nudge is absorbed by rounding. True for coordinates of magnitude at most 127 and boxes at least four margins wide.)", "quantifier": "all doubles, tie rules, objectives, options", "why_tests_cant": "depends on the spacing of the doubles at the bound", "anchors": ["fides/minimize.py:Optimizer.make_non_degenerate"]}
{"id": "C62", "title": "Global convergence with a worst-case iteration bound", "statement": "Minimizing without bounds, with the Steihaug (CG) subspace solver, an objective that is bounded below and has a Lipschitz continuous gradient, using symmetric model Hessians bounded by M (from the user or any approximation, possibly indefinite): for every eps the run meets a gradient shorter than eps within a number of iterations that depends only on the options, the two constants, the initial gap to the lower bound and eps, and that grows at most like 1/eps^2. In particular, with a positive gatol, minimize returns normally whatever the iteration limit; if the limits allow that many iterations it stops with a convergence flag, and with the other tolerances off that flag is GTOL and the last point evaluated has a gradient of length at most gatol.", "quantifier": "all dimensions, smooth objectives, starting points, option values in range, oracles, step-back strategies, histories of the optimizer object, eps", "why_tests_cant": "a bound over every objective of a class and every eps; a finite number of runs can only fail to refute it", "anchors": ["fides/minimize.py:Optimizer.minimize", "fides/minimize.py:Optimizer.update_tr_radius", "fides/minimize.py:Optimizer.check_convergence", "fides/steps.py:TRStepSteihaug", "fides/trust_region.py:trust_region"]}
{"id": "C63", "title": "Global convergence with the default (2D) and the full subspace solver", "statement": "Minimizing without bounds, with the default 2D or the full subspace solver, an objective that is bounded below, has a Lipschitz continuous gradient and bounded symmetric Hessians: for every eps the run meets a gradient shorter than eps within a number of iterations that depends only on the options, the constants and eps; with a positive gatol and sufficient limits it stops with a convergence flag at a point whose gradient is short.", "quantifier": "all dimensions, smooth objectives, starting points, option values in range, exact linear algebra routines (eigendecomposition, least squares, Cholesky test), histories, eps", "why_tests_cant": "a bound over every objective of a class and every eps; and the failure occurs on singular Hessians whose kernel contains the gradient, which random tests never meet", "anchors": ["fides/steps.py:TRStep2D", "fides/steps.py:TRStepFull", "fides/subproblem.py:solve_nd_trust_region_subproblem", "fides/subproblem.py:get_1d_trust_region_boundary_solution", "fides/minimize.py:Optimizer.minimize"]}
{"id": "C64", "title": "A positive fatol stops every run without help of the limits", "statement": "With fatol > 0 and an objective whose finite values at points within the bounds stay above fmin (it need not be continuous, deterministic, or finite everywhere, and the gradient and Hessian it returns need not be its derivatives), a run in which no iteration records a NaN trust-region ratio makes fewer iterations than a number that depends only on fatol, delta_init, gamma1, gamma2, the value at the start and fmin, for all bounds, solvers, step-back strategies and Hessian approximations. So with sufficient limits the call ends, and when it returns the flag is FTOL, XTOL, GTOL or DELTA_TOO_SMALL. For more than one variable, finite linear algebra and symmetric Hessians no NaN ratio is recorded without bounds, nor with the refine strategy (Steihaug: unless an iteration starts at an exactly stationary point). For one variable none is recorded for any bounds and step-back strategy either, unless an iteration starts at an exactly stationary point (default solver: with positive Hessians).", "quantifier": "all dimensions, objectives, starting points, bounds, solvers, option values in range, oracles, histories of the optimizer object", "why_tests_cant": "the bound holds for every objective, including adversarial ones that answer each call differently", "anchors": ["fides/minimize.py:Optimizer.minimize", "fides/minimize.py:Optimizer.update_tr_radius", "fides/minimize.py:Optimizer.check_convergence", "fides/minimize.py:Optimizer.check_continue"]}
{"id": "C65", "title": "Convergence of the Steihaug solver under bounds", "statement": "Box constraints, Steihaug solver, symmetric bounded model Hessians (exact or approximate, possibly indefinite), gradient Lipschitz in the box and bounded in coordinates with bounds, objective bounded below in the box: for every eps that is not too small against the margin 2.2e-14 by which iterates are kept off the bounds, a run meets within an explicit number of iterations a point whose optimality measure (gradient weighted with the distances to the bounds) is below eps, unless (possible with two or more variables only) an earlier iteration proposed a point with an entry that is not a number (C52); under tolerances and limits that allow it, it gets there without an exception or early exit. The measure is zero exactly at first-order optimal points of the box.", "quantifier": "all dimensions, boxes, smooth objectives, Hessian sequences, starting points, tolerances eps, option values in range, runs", "why_tests_cant": "a bound for all smooth objectives and all boxes; runs on examples cannot show it", "anchors": ["fides/minimize.py:Optimizer.minimize", "fides/trust_region.py:trust_region", "fides/steps.py:TRStepSteihaug", "fides/steps.py:GradientStep", "fides/minimize.py:Optimizer.get_affine_scaling", "fides/minimize.py:Optimizer.make_non_degenerate"]}
{"id": "C66", "title": "The Steihaug solver is self-contained and total", "statement": "With subspace_solver=scg, trust_region calls no external routine (its result is the same whatever eigh, root finders, lstsq or scipy minimize return or raise) and raises no exception; for finite data with symmetric Hessian at a feasible point it returns a proposal for every step-back strategy, within n passes of each of its loops.", "quantifier": "all inputs (NaN and inf included for not raising), dimensions, bounds, step-back strategies, behaviours of external routines", "why_tests_cant": "ranges over all inputs and over all behaviours of the routines", "anchors": ["fides/steps.py:TRStepSteihaug", "fides/steps.py:CGStep", "fides/trust_region.py:trust_region", "fides/stepback.py:stepback_reflect", "fides/stepback.py:stepback_truncate"]}
{"id": "C67", "title": "Convergence of the default solver under bounds", "statement": "Box constraints whose two sides are more than three margins (6.6e-14) apart, two-dimensional (default) or full-space solver with exact linear algebra and root finding, step-back strategy reflect (default), reflect_single or refine, symmetric positive definite bounded model Hessians, gradient Lipschitz in the box and bounded in coordinates with bounds, objective bounded below in the box: for every eps that is not too small against the margin by which iterates are kept off the bounds and against the fixed thresholds of the subproblem solvers, a run meets within an explicit number of iterations a point whose optimality measure is below eps, unless (never with refine, never with one variable) an earlier iteration proposed a point with an entry that is not a number (C52); under tolerances and limits that allow it, it gets there without an exception or early exit.", "quantifier": "all dimensions, boxes, smooth objectives, positive definite Hessian sequences, starting points in the box, tolerances eps, option values in range, runs", "why_tests_cant": "a bound for all smooth objectives and all boxes; runs on examples cannot show it", "anchors": ["fides/minimize.py:Optimizer.minimize", "fides/trust_region.py:trust_region", "fides/steps.py:TRStep2D", "fides/steps.py:TRStepFull", "fides/steps.py:RefinedStep", "fides/subproblem.py:solve_nd_trust_region_subproblem", "fides/minimize.py:Optimizer.get_affine_scaling", "fides/minimize.py:Optimizer.make_non_degenerate"]}
{"id": "C68", "title": "No exceptions on well-behaved problems", "statement": "For an objective that returns at every point of the box a value, gradient and Hessian (or value and gradient, with a BFGS, DFP or Broyden approximation) of the right shapes, finite and symmetric where the value is finite, every subspace solver and step-back strategy, numbers as trust-region options, and a starting point in the box (possibly on a bound) with a finite value: minimize returns normally, it raises no exception, whatever the iterates and whatever the values (infinite and NaN values at trial points included). The external routines may fail to converge (RuntimeError from newton and brentq) as documented.", "quantifier": "all dimensions n > 0, boxes, objectives, starting points, solvers, strategies, option values, outcomes of the external routines within their documentation", "why_tests_cant": "an exception can hide at any iterate of any problem: missing fallbacks, empty candidate lists, brackets without sign change, truncation that fails", "anchors": ["fides/minimize.py:Optimizer.minimize", "fides/trust_region.py:trust_region", "fides/subproblem.py:solve_1d_trust_region_subproblem", "fides/subproblem.py:solve_nd_trust_region_subproblem", "fides/subproblem.py:get_1d_trust_region_boundary_solution", "fides/stepback.py:stepback_truncate", "fides/steps.py:Step.calculate"]}
{"id": "C69", "title": "Strictly convex quadratics are minimized exactly in logarithmically many iterations", "statement": "On an unbounded problem whose objective is a strictly convex quadratic with exact gradient and Hessian, with the default (two-dimensional) or the full-space solver and eta <= 1 < gamma2: every iteration has a ratio of actual to predicted reduction of exactly 1, is accepted, and does not shrink the radius; as soon as the minimizer lies within the radius the next point is the minimizer; until then every step is as long as the radius and the radius grows by gamma2. Hence minimize returns after at most K + 1 iterations for every K with 2 (f(x0) - min f) <= m (delta_init gamma2^K)^2, m the least curvature; and with all tolerances zero it returns the exact minimizer and minimum with exit flag GTOL.", "quantifier": "all dimensions, quadratics with positive definite matrix, starting points, option values, exact linear algebra routines, iterations", "why_tests_cant": "an exact statement about all quadratics and all starting points; a test sees finitely many and cannot see an exact bound on the number of iterations", "anchors": ["fides/minimize.py:Optimizer.minimize", "fides/minimize.py:Optimizer.update_tr_radius", "fides/steps.py:TRStep2D", "fides/steps.py:TRStepFull", "fides/subproblem.py:solve_nd_trust_region_subproblem", "fides/subproblem.py:solve_1d_trust_region_subproblem"]}
{"id": "C70", "title": "The progress log is a faithful table", "statement": "A run of minimize that returns normally logs a table and exactly one stop message. The table has a row for the start and one per iteration, numbered from 0, and the header is repeated before every tenth row. Each row shows its iteration: the value after it, the change of the value at the trial point, the ratio, the radius and gradient norm before it, the length and type of the step and whether it was accepted. The type is the label of the chosen solver, g, or a label that belongs to the chosen step-back strategy (without bounds always the solver's). Hence the fval column is finite, drops strictly exactly at accepted rows, and ends with the returned value, while the gradient column lags by one row (rows 0 and 1 always show the same norm, as do a rejected row and the next one). The stop message names the criterion of the exit flag and prints true numbers; it is a warning iff the run did not converge. A run that raises logs such a table too, with at most the failing iteration missing. Rows are aligned with the header for up to 9999 iterations.", "quantifier": "all objectives, starting points, bounds, options, Hessian approximations, clocks, run lengths, and points at which an exception is raised", "why_tests_cant": "ranges over all runs and all points of failure; a test compares the log of a few runs", "anchors": ["fides/minimize.py:Optimizer.log_step", "fides/minimize.py:Optimizer.log_step_initial", "fides/minimize.py:Optimizer.log_header", "fides/minimize.py:Optimizer.check_convergence", "fides/minimize.py:Optimizer.check_continue", "fides/minimize.py:Optimizer.minimize"]}
{"id": "C71", "title": "A run started at a saddle point or a maximum leaves it", "statement": "Without bounds, with exact gradients and Hessians: started exactly at a stationary point with a direction of negative curvature (gradient zero, curvature at most -nu along some direction), the full-space solver, and the default two-dimensional solver in two or more dimensions, propose a step of exactly the length of the trust-region radius that predicts a decrease of at least nu*radius^2/2. Within a number of iterations that depends only on nu, the third derivatives and delta_init the step is accepted, so the returned value is below the value at the saddle, unless the run ends before because the gradient of a rejected trial point met gatol/grtol. In one dimension the default solver does not leave stationary points.", "quantifier": "all objectives with a bounded third-order remainder, all such starting points, dimensions and trust-region parameters, all exact linear algebra routines", "why_tests_cant": "ranges over all indefinite Hessians (including the degenerate case of a zero gradient, where the step comes from an eigenvector alone) and over all later steps of the run", "anchors": ["fides/steps.py:TRStep2D", "fides/steps.py:TRStepFull", "fides/subproblem.py:solve_nd_trust_region_subproblem", "fides/minimize.py:Optimizer.update_tr_radius", "fides/minimize.py:Optimizer.check_convergence"]}
{"id": "C72", "title": "Stopping options decide when to stop, nothing else", "statement": "Two optimizers that differ only in maxiter, maxtime, fatol, frtol, xtol, gatol, grtol, and in the time they take, follow the same path: after equally many iterations they have made the same objective calls and are in the same state (point, value, gradient, Hessian, radius, history, best point). Hence of two runs that return the one with more iterations extends the other, and returns values that are not larger. Tightening tolerances or raising limits never shortens a run, so it never makes the returned value or fval_min worse.", "quantifier": "all objectives, starting points, bounds, solvers, step-back strategies, Hessian approximations, pairs of option sets, clocks and run lengths", "why_tests_cant": "compares two runs of every problem under every pair of option sets; a test compares a few", "anchors": ["fides/minimize.py:Optimizer.minimize", "fides/minimize.py:Optimizer.check_continue", "fides/minimize.py:Optimizer.check_convergence", "fides/minimize.py:Optimizer.update_tr_radius", "fides/minimize.py:Optimizer.update"]}
{"id": "C73", "title": "Fast convergence near a minimum with positive curvature", "statement": "Unbounded problem, exact Hessian, default or full-space solver. Once a run has arrived near a local minimum with positive curvature and Lipschitz Hessian (in a sublevel region whose size is given explicitly by the curvature, the Lipschitz constant and eta), it never leaves the region: every step is accepted, reduces the objective by at least eta times the predicted reduction and does not shrink the trust region; after a number of iterations logarithmic in (size of the region)/(radius) every step is the Newton step and the distance to the minimizer is at most L/(2m) times its previous square. The number of remaining iterations until the gradient tolerance is met is bounded explicitly, growing with the logarithm of the logarithm of 1/gatol. A run started in the region returns normally with exit flag GTOL within that many iterations, at a point within gatol/m of the minimizer.", "quantifier": "all dimensions, objectives with a positively curved minimum (not necessarily convex or bounded below elsewhere), starting points, trust-region options, gradient tolerances and iteration numbers", "why_tests_cant": "a rate of convergence is a statement about all iterations on all such objectives; tests see a few runs of a few functions", "anchors": ["fides/minimize.py:Optimizer.minimize", "fides/minimize.py:Optimizer.update_tr_radius", "fides/minimize.py:Optimizer.update", "fides/minimize.py:Optimizer.check_convergence", "fides/trust_region.py:trust_region", "fides/steps.py:TRStep2D", "fides/steps.py:TRStepFull", "fides/subproblem.py:solve_1d_trust_region_subproblem", "fides/subproblem.py:solve_nd_trust_region_subproblem"]}
{"id": "C74", "title": "The choice of the origin does not matter", "statement": "In exact arithmetic, if bounds and objective are translated by a vector c (value, gradient and Hessian at x + c are those of the original objective at x), then minimize started at x0 + c does exactly what minimize does on the original problem from x0: the same objective calls at translated points, the same outcome (result or exception), value, gradient, Hessian, radius, flags, counters and history, with x, x_min and all visited points translated. This holds for every solver, step-back strategy, Hessian approximation, set of options and bounds.", "quantifier": "all dimensions, objectives (including ones that return non-finite values or raise), translations, bounds, options, solvers, Hessian approximations, starting points and numbers of iterations", "why_tests_cant": "relates two runs of arbitrary length for every objective and translation; a test compares a few pairs of runs, and rounding hides small absolute tolerances", "anchors": ["fides/minimize.py:Optimizer.minimize", "fides/minimize.py:Optimizer.get_affine_scaling", "fides/minimize.py:Optimizer.make_non_degenerate", "fides/minimize.py:Optimizer.check_in_bounds", "fides/trust_region.py:trust_region", "fides/trust_region.py:stepback_reflect", "fides/trust_region.py:stepback_refine", "fides/steps.py:Step.step_back", "fides/steps.py:RefinedStep"]}
{"id": "C75", "title": "Continuing from a result never makes it worse", "statement": "If minimize is called again on the same deterministic problem, with the same or another optimizer and with any options, solver or Hessian approximation, from the x_min (or from the x) that an earlier call left, then if it returns, neither the value it returns nor its fval_min exceeds the earlier fval_min (or fval). The point concerned must not be closer than 1e2 times machine epsilon to a bound, because make_non_degenerate may then have moved it.", "quantifier": "all lawful float types, dimensions, deterministic objectives, bounds, pairs of option sets and optimizers, starting points and numbers of iterations", "why_tests_cant": "needs the recorded best value of every possible run to belong to the recorded point, and every possible second run never to lose it", "anchors": ["fides/minimize.py:Optimizer.minimize", "fides/minimize.py:Optimizer.track_minimum", "fides/minimize.py:Optimizer.update", "fides/minimize.py:Optimizer.make_non_degenerate"]}
{"id": "C76", "title": "The objective may keep using its own arrays", "statement": "An objective may fill the same gradient, residual or sensitivity arrays in every call and return them again, or modify the array it is given, without influence on the result of minimize. (False of the code for reused gradient arrays and for modified arguments; true if every call returns new arrays and leaves the argument alone.)", "quantifier": "all objectives and all patterns of array reuse, dimensions, bounds, options, solvers, Hessian approximations, starting points and numbers of iterations", "why_tests_cant": "whether a stale reference matters depends on the history of accepted and rejected steps; tests use objectives that return new arrays", "anchors": ["fides/minimize.py:Optimizer.minimize", "fides/minimize.py:Optimizer.update", "fides/minimize.py:Optimizer.track_minimum", "fides/minimize.py:Funout", "fides/minimize.py:FunEvaluator"]}
{"id": "C77", "title": "A starting point may be given as integers", "statement": "minimize does the same for a feasible starting point given as a list or array of integers as for the same point given as floats. (False of the code next to bounds: make_non_degenerate then writes its floats into an integer array, which moves the point by a whole unit, possibly out of the bounds; true if no entry is within 1e2 * 2^-52 of a bound.)", "quantifier": "all feasible integer vectors up to 2^53 in magnitude, dimensions, bounds, objectives, options, solvers, rounding rules and numbers of iterations", "why_tests_cant": "whether a coordinate is moved depends on the bound, the sign and the size of the entry (up to 256 in double precision); tests start from float arrays", "anchors": ["fides/minimize.py:Optimizer.minimize", "fides/minimize.py:Optimizer.make_non_degenerate", "fides/minimize.py:Optimizer.check_in_bounds"]}
{"id": "C78", "title": "A constant added to the objective changes nothing but the values", "statement": "With frtol = grtol = 0, minimizing f + c gives the same run as minimizing f: the same objective calls, the same point, gradient, Hessian, exit flag and iteration count (or the same exception), with values increased by c. (In exact arithmetic; frtol and grtol are relative to the value by design.)", "quantifier": "all constants, objectives not in residual mode (also those that raise or return infinite values or wrong shapes), bounds, starting points, Hessian approximations, solvers, strategies, remaining options and numbers of iterations", "why_tests_cant": "every decision of every iteration (acceptance, radius, best point, stopping) must be independent of the origin of values, for all objectives and histories", "anchors": ["fides/minimize.py:Optimizer.update_tr_radius", "fides/minimize.py:Optimizer.check_convergence", "fides/minimize.py:Optimizer.track_minimum", "fides/minimize.py:Optimizer.minimize"]}
{"id": "C79", "title": "The order of the variables does not matter", "statement": "Minimizing a problem whose variables are listed in another order (bounds, starting point, gradients, Hessians, residual sensitivities, hess0 reordered accordingly) gives the same run with the variables in that order: the same sequence of objective calls at reordered points, the same value, exit flag, iteration count, radius and history (or the same exception), and reordered point, gradient and Hessian. (In exact arithmetic, for the solvers 2D and scg, with linear algebra routines that respect the order.)", "quantifier": "all orders, objectives (also raising, infinite values, residual mode), bounds, starting points, Hessian approximations, solvers other than 'full', step-back strategies, options and numbers of iterations", "why_tests_cant": "every reduction and every choice (first bound hit, free variables, clipping, tie-breaking between candidates) in every iteration must be independent of positions, for all problems and all permutations", "anchors": ["fides/minimize.py:Optimizer.minimize", "fides/trust_region.py:trust_region", "fides/steps.py:Step", "fides/hessian_approximation.py:HessianApproximation"]}
{"id": "C80", "title": "Strongly convex problems are solved from every starting point, finally with quadratic convergence", "statement": "Without bounds, with the objective returning its Hessian and the default or the full-space solver: if all curvatures of the objective are between m > 0 and M and its Hessian is Lipschitz continuous, then from every starting point, however far away, and for every gradient tolerance, however small, minimize returns normally with exit flag GTOL; the reported value exceeds the minimum by at most gatol^2/(2m) and the reported point is within gatol/m of the minimizer. The number of iterations is below N + K + J with N depending only on the starting value and the constants, K on the radius floor, and J growing like log log (1/gatol): after N + K + j iterations the distance to the minimizer is at most R/4^(2^j - 1). (Exact arithmetic, other tolerances 0, limits not reached.)", "quantifier": "all dimensions, strongly convex objectives, starting points, trust-region parameters in their documented ranges, gradient tolerances, Hessian Lipschitz constants, step-back strategies", "why_tests_cant": "a statement about every starting point and every objective of the class, and about the asymptotic rate; tests see single runs of single objectives", "anchors": ["fides/minimize.py:Optimizer.minimize", "fides/minimize.py:Optimizer.update_tr_radius", "fides/minimize.py:Optimizer.check_convergence", "fides/steps.py:TRStep2D", "fides/steps.py:TRStepFull", "fides/subproblem.py:solve_nd_trust_region_subproblem"]}
{"id": "C81", "title": "The root search of the subproblem solver is well posed and finds the exact solution", "statement": "dslam and dsecular return the derivatives of slam and secular wherever the shifted matrix B + lam I is positive definite (dslam: regular); there the secular function is strictly increasing and concave, so that Newton's method with the two functions handed to scipy.optimize.newton, started at a shift with a too long step, increases monotonically to the multiplier of the exact solution, with a linear rate at least. For every positive definite matrix solve_nd_trust_region_subproblem returns the exact minimizer of the quadratic model over the ball and never falls through to the hard case; the same holds for indefinite matrices when the gradient has a component along the lowest eigenvector and the test in front of the root search passes: even when Newton's method gives up, the bracketing loop always finds an interval with the root for brentq (for ||g|| up to 1e92 times the radius). (Exact arithmetic; exact eigendecomposition; root finders that return roots.)", "quantifier": "all dimensions, symmetric matrices, gradients, radii, shifts, eigendecompositions, all numbers of Newton iterations, all root finders meeting their contract", "why_tests_cant": "derivatives, monotonicity, convergence and success of the bracketing loop are statements about every matrix, gradient and radius, and about the limit of an iteration; the tests compare a few random matrices", "anchors": ["fides/subproblem.py:slam", "fides/subproblem.py:dslam", "fides/subproblem.py:secular", "fides/subproblem.py:dsecular", "fides/subproblem.py:solve_nd_trust_region_subproblem"]}
{"id": "C82", "title": "When minimize raises, the best point found so far is kept", "statement": "When minimize raises after a first evaluation with finite results - whatever the exception: raised by the objective or by a check of what it returned, by the proposal computation, by the Hessian approximation, by the bounds check or by the history recording - the attributes x_min, fval_min and grad_min are those of the first best of all evaluations made in this run, x, fval and grad are those of one feasible evaluation with finite results (points up to the nudge off the bounds), and the evaluation that made the run fail is not among these evaluations. An exception raised by the objective reaches the caller unchanged, and the objective is not called again after it.", "quantifier": "all objectives, starting points, bounds, options, Hessian settings, numbers of iterations, exception kinds, points of failure", "why_tests_cant": "the exception can come at any evaluation and from any of the places in an iteration that can raise; tests do not cover interrupted runs", "anchors": ["fides/minimize.py:Optimizer.minimize", "fides/minimize.py:Optimizer.track_minimum", "fides/minimize.py:Optimizer.update", "fides/minimize.py:Optimizer.check_finite"]}
{"id": "C83", "title": "SR1 learns the Hessian of a quadratic function", "statement": "In a run with hessian_update=SR1() without bounds on a quadratic function with symmetric Hessian A, started from the identity or a symmetric hess0, directions along which the approximation agrees with A stay such directions; an iteration that changes the approximation makes it agree with A along the step of that iteration, where it did not agree before; at most n iterations change it, and after n changes it equals A exactly. The run can then go on to use it: an accepted step along which the approximation is already exact leaves it unchanged. (Exact arithmetic.) The last sentence is false of the code: such a step makes every entry NaN, and the run raises, or ends right there and returns the NaN matrix.", "quantifier": "all dimensions, quadratic functions, starting points, initial matrices, options, step proposals, numbers of iterations", "why_tests_cant": "the claim is about all quadratic functions and whole runs; tests check single updates", "anchors": ["fides/hessian_approximation.py:SR1._compute_update", "fides/hessian_approximation.py:IterativeHessianApproximation.update", "fides/minimize.py:Optimizer.update"]}
{"id": "C84", "title": "Convergence for objectives that are undefined (NaN/inf) on a part of the space", "statement": "Minimizing without bounds an objective that returns a non-finite value outside some set (a logarithm, a root, a simulation that fails), is bounded below on that set, and is smooth with Lipschitz gradient on the balls of some radius r > 0 around the points not worse than the starting point: the run never moves to a point where the objective is undefined, it meets a gradient shorter than eps within a number of iterations given by the options, the constants, r and eps alone, and with a positive gatol it makes fewer iterations than that; if the objective returns tuples of the right shape everywhere, minimize returns normally with a convergence flag, FTOL and GTOL refer to a point where the objective is defined, and with the other tolerances switched off it returns with GTOL and a gradient not longer than gatol. With Steihaug's solver and bounded Hessians; with the default and the full-space solver for positive definite ones. (Exact arithmetic.)", "quantifier": "all dimensions, sets, objectives, constants, starting points in the set, options, iteration numbers", "why_tests_cant": "a claim about all objectives and all starting points; the number of undefined trial points is unbounded over them", "anchors": ["fides/minimize.py:Optimizer.minimize", "fides/minimize.py:Optimizer.update_tr_radius", "fides/minimize.py:Optimizer.check_finite", "fides/minimize.py:Optimizer.check_convergence"]}
{"id": "C85", "title": "How good the proposals of the three subspace solvers are", "statement": "On a problem without bounds, with gradient g and Hessian B: the step trust_region proposes with subspace 'full' is, for positive definite B, the best one of the whole trust region; with '2D' (positive definite B, g not zero) it is at least as good as every combination of the gradient and the Newton step within the radius, hence as the steepest descent point and the dogleg path, unless the gradient differs from a multiple of the Newton step by 2^-52 or less without being one, when it is the best step along the Newton direction; with 'scg' (every symmetric B, g not zero) it is within the radius and at least as good as every multiple of the gradient within the radius. The full-space proposal predicts at least the decrease of the other two, and all predict a decrease. Steps exceed the radius only if they are the exact minimum of the model, and then by no more than 2^-26. (Exact arithmetic and linear algebra.)", "quantifier": "all dimensions, gradients, Hessians of the stated kind, radii, step-back strategies, comparison points", "why_tests_cant": "optimality against a continuum of competing steps, for all matrices", "anchors": ["fides/trust_region.py:trust_region", "fides/steps.py:TRStepFull", "fides/steps.py:TRStep2D", "fides/steps.py:TRStepSteihaug", "fides/subproblem.py:solve_nd_trust_region_subproblem"]}
{"id": "C86", "title": "The result does not depend on the choices of the linear algebra library", "statement": "Eigendecompositions are determined only up to order and sign of the eigenvectors (and the choice of a basis for multiple eigenvalues). On a problem whose Hessian is symmetric positive definite, with every variable free or between two bounds, with the step-back strategies reflect and single_reflect and every subspace option, minimize gives the same result - point, flag, counters, history, all evaluations, or the same exception - with all exact linear algebra routines; so does every single proposal. With the Steihaug solver this holds for all problems and whatever the routines return. For indefinite Hessians it is false of the reduced subproblem: at a zero gradient the two signs give opposite steps.", "quantifier": "all pairs of exact routines (which may differ from one call to the next), objectives with positive definite Hessians or approximations staying positive definite, boxes, starting points, options of the stated kind, numbers of iterations", "why_tests_cant": "one installation has one library; the claim compares runs under all admissible eigenvector choices", "anchors": ["fides/subproblem.py:solve_nd_trust_region_subproblem", "fides/steps.py:TRStepFull", "fides/steps.py:TRStep2D", "fides/trust_region.py:trust_region", "fides/minimize.py:minimize"]}
{"id": "C87", "title": "Without bounds the optimizer does not depend on the choice of orthonormal coordinates", "statement": "Take a problem without bounds, given by an objective that returns value, gradient and symmetric Hessian, and the same problem in the coordinates y = Q x with an orthogonal matrix Q (same options, same clock, starting point Q x0, x0 not a stationary point, no history file). Then minimize makes the same decisions in both runs: same values, radius, exit flag and counters after any number of iterations, while every evaluated point, the returned point, the best point and the gradients of the second run are those of the first one multiplied by Q and the Hessian is the conjugated one. This holds with subspace_dim='steihaug' for every symmetric Hessian and any linear algebra routines, and with '2D' (the default) and 'full' for positive definite Hessians if the linear algebra routines are exact (they may be different ones in the two runs). All step-back strategies.", "quantifier": "all dimensions, orthogonal matrices, objectives with symmetric Hessian (positive definite for 2D/full), starting points with non-zero gradient, validated options, step-back strategies, clocks, exact linear algebra routines, numbers of iterations", "why_tests_cant": "a statement about pairs of runs of arbitrary length on arbitrary objectives under all orthogonal coordinate changes; a test compares two runs for one rotation", "anchors": ["fides/minimize.py:Optimizer.minimize", "fides/minimize.py:Optimizer.update_tr_radius", "fides/minimize.py:Optimizer.check_convergence", "fides/trust_region.py:trust_region", "fides/steps.py:TRStep2D", "fides/steps.py:TRStepFull", "fides/steps.py:TRStepSteihaug", "fides/subproblem.py:solve_nd_trust_region_subproblem"]}
{"id": "C88", "title": "Quasi-Newton runs do not depend on the choice of orthonormal coordinates", "statement": "Take a problem without bounds given by an objective that returns value and gradient only, optimized with BFGS, DFP or any Broyden-class approximation with phi >= 0 (curvature condition enforced, as by default) started at the identity, and the same problem in the coordinates y = Q x with an orthogonal matrix Q (same options, same clock, starting point Q x0 with non-zero gradient, no history file). Then minimize makes the same decisions in both runs: same values, radius, exit flag and counters after any number of iterations, while all evaluated points, the returned point, the best point and the gradients of the second run are those of the first one multiplied by Q, and the Hessian approximation (and its stored last update) is the conjugated one. With subspace_dim='steihaug' for any linear algebra routines, with '2D' (default) and 'full' for exact ones; nothing is assumed about the curvature of the objective. All step-back strategies.", "quantifier": "all dimensions, orthogonal matrices, objectives with gradients, phi >= 0, starting points with non-zero gradient, validated options, step-back strategies, clocks, exact linear algebra routines, numbers of iterations", "why_tests_cant": "a statement about pairs of runs of arbitrary length on arbitrary objectives under all orthogonal coordinate changes; the approximation accumulates the whole history of steps", "anchors": ["fides/minimize.py:Optimizer.minimize", "fides/minimize.py:Optimizer.update", "fides/hessian_approximation.py:Broyden", "fides/hessian_approximation.py:BFGS", "fides/hessian_approximation.py:DFP", "fides/hessian_approximation.py:broyden_class_update", "fides/trust_region.py:trust_region"]}
{"id": "C89", "title": "BFGS converges on convex functions from every starting point", "statement": "Let the objective be convex and bounded below, with a Lipschitz continuous gradient (nothing is assumed about second derivatives or strong convexity, and a minimizer need not exist), and let it be optimized without bounds, with BFGS() started at the identity or a positive definite hess0, and subspace_dim='steihaug'. Then for every eps > 0 the run comes, within a number of iterations that is given explicitly in terms of the options, the Lipschitz constant, the bound of the initial matrix, the distance of the initial value to the lower bound, and eps, to a point whose gradient is shorter than eps (and whose value exceeds that at any other point by at most eps times the distance); with a positive gatol minimize returns regularly within that many iterations, with a convergence flag, and with gtol if the other tolerances are off. The reason is that the BFGS matrix of iteration k is positive definite and bounded by m0 + L*k; the convergence statement holds for any approximation that grows at most linearly.", "quantifier": "all dimensions, convex objectives with Lipschitz gradient, starting points, positive definite initial matrices, validated trust-region options, eps", "why_tests_cant": "a global convergence statement over all convex functions; the approximation depends on the whole history of steps and is not bounded a priori, and the iteration number is far beyond what a test can run", "anchors": ["fides/minimize.py:Optimizer.minimize", "fides/minimize.py:Optimizer.update_tr_radius", "fides/hessian_approximation.py:BFGS", "fides/hessian_approximation.py:broyden_class_update", "fides/steps.py:TRStepSteihaug"]}
{"id": "C90", "title": "The default solver minimizes without a lower bound of the curvature", "statement": "Let the objective have a Lipschitz continuous gradient and be bounded below, and let it be optimized without bounds with the default (subspace_dim='2D') or the full-space solver, in any dimension and with any stepback strategy, where the model Hessians of the run are symmetric, positive definite and bounded above by M, but possibly arbitrarily close to singular. Then for every eps not below 2^-49 and M*2^-25 the run comes, within an explicitly given number of iterations, to a point whose gradient is shorter than eps; with such a gatol minimize returns regularly within that number of iterations, with a convergence flag, and with gtol if the other tolerances are off; if the objective is convex, its value at the final point then exceeds that at any other point by at most gatol times the distance.", "quantifier": "all dimensions, objectives with Lipschitz gradient that are bounded below, Hessians that are positive definite and bounded, starting points, validated trust-region options, eps above the threshold", "why_tests_cant": "a global convergence statement over all objectives; the threshold shows that the tolerances in the two-dimensional subproblem (the angle test of the subspace, the Newton-step tolerance) do no harm above it, whereas below a positive definite Hessian is not enough for progress (C63 has the singular counterexample)", "anchors": ["fides/minimize.py:Optimizer.minimize", "fides/steps.py:TRStep2D", "fides/steps.py:TRStepFull", "fides/subproblem.py:solve_nd_trust_region_subproblem", "fides/subproblem.py:solve_1d_trust_region_subproblem", "fides/stepback.py:stepback_reflect"]}
{"id": "C91", "title": "The truncated-CG solver converges superlinearly", "statement": "Let the problem have no bounds, be optimized with subspace_dim='scg' (Steihaug) and the exact Hessian. Once the run is close to a minimum with positive curvature (region given explicitly), every further iteration reduces the objective by at least eta times the prediction and is accepted, the trust radius never shrinks, and as soon as the gradient is shorter than m times the radius the step solves Newton's equation up to min(1/2, sqrt|g|)*|g|, so that |g| decreases with order 3/2: C^2|g| is at most (1/4)^((3/2)^j) after j iterations. For strongly convex objectives this happens from every starting point after an explicitly bounded number of iterations; with the other tolerances off minimize returns with gtol, with a value within gatol^2/(2m) of the minimum and a point within gatol/m of the minimizer, and the number of iterations depends on gatol only through log log(1/gatol).", "quantifier": "all dimensions, objectives with Lipschitz Hessian and positive curvature at the minimum (globally: strongly convex), starting points, validated trust-region options, gradient tolerances, numbers of iterations", "why_tests_cant": "a rate of convergence is a statement about an infinite family of runs; a wrong forcing term in the CG loop (for example min(1/2, 1/2) instead of min(1/2, sqrt|g|)) still converges on every test problem", "anchors": ["fides/minimize.py:Optimizer.minimize", "fides/minimize.py:Optimizer.update_tr_radius", "fides/steps.py:TRStepSteihaug", "fides/subproblem.py:get_1d_trust_region_boundary_solution", "fides/trust_region.py:trust_region"]}
{"id": "C92", "title": "The order of the variables does not matter: every solver, every pair of exact libraries", "statement": "Solving a problem whose variables are listed in another order gives the same run with the variables in that order, also for the full-space solver (whose search basis is listed in another order then) and when the linear algebra routines used for the two problems have nothing to do with each other (signs and order of eigenvectors, for example): for symmetric positive definite Hessians (returned by the objective, or from an approximation), variables that are free or between two bounds, every subspace option and the strategies reflect and single_reflect, the objective calls of the second run are those of the first at reordered points, and result or exception, value, radius, flags, counters and history are the same.", "quantifier": "all dimensions, permutations, objectives with positive definite Hessians, bounds, starting points, options, subspace options, pairs of exact linear algebra libraries", "why_tests_cant": "a test compares a few orders on a few problems with one library; an index mixed up between the search basis and its coefficients shows up only for the orders and dimensions not tried", "anchors": ["fides/steps.py:TRStepFull", "fides/steps.py:Step.compute_step", "fides/trust_region.py:trust_region", "fides/minimize.py:Optimizer.minimize"]}
{"id": "C93", "title": "Fast convergence near a minimum in the interior of the box", "statement": "Problem with bounds, default or full-space solver, exact Hessian: near a minimum with positive curvature (between m and M, Hessian Lipschitz with constant L) whose coordinates are at least w away from their bounds, every step is accepted with a trust-region ratio of at least eta, the next iterate is the evaluated point (it is not moved away from the bounds), the objective decreases, the radius does not shrink, the distance to the minimizer is at least halved and at most (L + 5M/w)/m times the square of the previous distance; so after j iterations it is at most R/2^(2^j - 1), and the run stops after a number of iterations that grows like log log (1/gatol). The scaling by the distance to the bounds and the additional diagonal of the model do not spoil the quadratic convergence of Newton's method.", "quantifier": "all dimensions, objectives with a curved minimum, bounds at least w away from it, exact linear algebra libraries, step-back strategies, options with the documented parameter ranges, iterations after the arrival near the minimum", "why_tests_cant": "a test sees fast convergence on a few problems; whether the scaled Newton step is cut off or rejected, or the rate degrades to a linear one, for some objective, box or library cannot be seen from them", "anchors": ["fides/minimize.py:Optimizer.get_affine_scaling", "fides/trust_region.py:trust_region", "fides/steps.py:TRStep2D", "fides/steps.py:TRStepFull", "fides/minimize.py:Optimizer.update_tr_radius", "fides/minimize.py:Optimizer.make_non_degenerate"]}
{"id": "C94", "title": "Convex problems with bounds are solved to global optimality", "statement": "For an objective that is convex in a box with two bounds for every variable, minimize returns and the fval_min it reports is at most sqrt(n W) eps + n G 100 spacing(1) above the minimum of the objective over the whole box, from every starting point (W: width of the bounds, G: bound of the gradient, eps: the accuracy asked for by gatol); fval_min is the value at a point of the box, and x_min is within 100 spacing(1) of that point. If the objective is strongly convex, x_min is within sqrt(2 gap / m) + sqrt(n) 100 spacing(1) of the minimizer. Solver default (two-dimensional) or full-space with positive definite Hessians, or Steihaug with any bounded Hessians. With one variable this is unconditional, and for the first two solvers also with `refine`; otherwise the run may instead have called the objective with an argument that is not a vector of numbers.", "quantifier": "all dimensions n > 0, boxes, convex smooth objectives, starting points in the box, iteration limits above the bound of C65/C67, exact routines", "why_tests_cant": "a test compares the result with a known minimum for a few functions; that no convex objective, box or starting point makes the run stop at a point that is not (nearly) the global minimum cannot be tested", "anchors": ["fides/minimize.py:Optimizer.minimize", "fides/minimize.py:Optimizer.check_convergence", "fides/minimize.py:Optimizer.track_minimum", "fides/minimize.py:Optimizer.get_affine_scaling", "fides/trust_region.py:trust_region"]}
{"id": "C95", "title": "The unit of the objective does not matter", "statement": "Without bounds, multiplying the objective (value, gradient, Hessian) and the two absolute tolerances fatol and gatol by a number c > 0 changes nothing but the unit: the full-space solver proposes the same steps, and minimize visits the same points with the same radius, decisions, counters and exit flag and returns the same x; fval, grad, hess and the best value and its gradient are c times the original ones. With the default (2D) solver the same holds if its test for the part of the gradient orthogonal to the Newton step, which compares with an absolute number (2^-52), comes out the same in both units; an example shows that the proposal depends on the unit otherwise.", "quantifier": "all dimensions, factors c > 0, objectives with positive definite Hessians, starting points, step-back strategies, options, exact (possibly different) linear algebra routines, histories of the run", "why_tests_cant": "a test compares two runs for one objective and one factor; a hidden absolute threshold somewhere in the chain (as the one in the 2D solver) shows up only for special combinations of objective and unit", "anchors": ["fides/minimize.py:Optimizer.minimize", "fides/minimize.py:Optimizer.update_tr_radius", "fides/minimize.py:Optimizer.check_convergence", "fides/steps.py:TRStepFull", "fides/steps.py:TRStep2D", "fides/trust_region.py:trust_region"]}
