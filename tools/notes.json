{
 "C34": [
  "partial",
  "Full claim is false of the code: C34_counterexample (0/0 makes the matrix NaN). C34_sr1_partial excludes exactly the zero denominator. C34_run_counterexample: in a run this ends in an exception, or in a returned Hessian of NaN; the example is x^2/2 from 1 with SR1()."
 ],
 "C35": [
  "partial",
  "BG: proved. BB: false of the code (its update never changes the matrix), C35_bb_never_updates and C35_bb_counterexample."
 ],
 "C40": [
  "partial",
  "Proved for every scheme except BB, where it is false of the code (C40_bb_counterexample)."
 ],
 "C12": [
  "partial",
  "Full claim is false of the code: C12_counterexample (the test is applied to a rejected trial point). C12_gtol_partial: true when the last step was accepted; the relative test then uses the previous value."
 ],
 "C06": [
  "auto",
  "x_min equals the argument of the best call up to the in-place nudge (the array is shared with the current point); exact when the nudge does not act."
 ],
 "C17": [
  "auto",
  "Geometric decrease of the radius under consecutive rejections and its consequence, the DELTA stop."
 ],
 "C18": [
  "auto",
  "False for HybridFixed/HybridFraction (switch not reset) and for exitflag/tr_ratio before the first test; proved for all other schemes and reported state."
 ],
 "C20": [
  "auto",
  "Includes the exact condition under which the answer is NaN (C20_nan_iff)."
 ],
 "C21": [
  "auto",
  "The posdef branch accepts Newton steps up to 2^-26 beyond the radius, hence delta + 2^-26."
 ],
 "C22": [
  "auto",
  "False for indefinite B (counterexample); positive part assumes exact root finders."
 ],
 "C25": [
  "auto",
  "Steihaug proposals: s includes scaling*ss0 while ss0 is not scaled back; see theorem docstrings."
 ],
 "C26": [
  "auto",
  "False for the truncated 2D proposals: columns of the truncated basis are normalised one by one and may become parallel (C26_counterexample)."
 ],
 "C43": [
  "auto",
  "resfun=True without a hessian_update that needs residuals cannot be satisfied by any objective."
 ],
 "C45": [
  "auto",
  "Keys written as plain strings skip the enum check of subspace_solver/stepback_strategy; history_file=None is a TypeError; maxiter=inf raises OverflowError."
 ],
 "C47": [
  "auto",
  "One entry per iteration for every quantity; the group is written only after a normal return."
 ],
 "C48": [
  "auto",
  "Sequential calls proved; interleaved calls can attach two handlers (counterexample), and the unsynchronised read-then-write of the counter can lose an increment so that two loggers share a name (C48_lost_increment_counterexample)."
 ],
 "C52": [
  "auto",
  "NaN proposals exist (counterexamples for n=1 with zero model Hessian, Steihaug at zero scaled gradient, tangent reflected step); infinities never appear. C52_one: with one variable and a nonzero scaled gradient (default solver: nonzero scaled Hessian) the trial point is a real number within the bounds."
 ],
 "C53": [
  "auto",
  "Simulation between the run with and without history_file."
 ],
 "C58": [
  "auto",
  "Control-flow guarantees instantiated at binary64 with any tie rule and summation order."
 ],
 "C59": [
  "partial",
  "False of the code in double precision: C59_counterexample, with default options and a feasible start. C59_inside_partial and C59_run_partial prove what holds: plain steps with theta at most 1 - 2^-50 stay within the bounds whatever the roundings. Missing: reflected and truncated steps."
 ],
 "C60": [
  "partial",
  "False of the code in double precision (two counterexamples); C60_kept_partial gives a range of values where it holds."
 ],
 "C61": [
  "partial",
  "False of the code in double precision for bounds of large magnitude; C61_inside_partial for magnitude at most 127."
 ],
 "C62": [
  "auto",
  "Exact arithmetic. C62_steihaug: visit of a small gradient; C62_stops: number of iterations; C62_total: normal return; C62_flag, C62_gtol: exit flag and stationarity; C62_rate: O(1/eps^2). Witness: half the squared norm in any dimension."
 ],
 "C63": [
  "partial",
  "The statement is false for the default solver: C63_counterexample exhibits a smooth, bounded-below objective with bounded Hessians on which the run stops at once at a non-stationary point with DELTA_TOO_SMALL, whatever exact linear algebra is used (C63_stall_counterexample: the same for every singular semidefinite Hessian with the gradient in its kernel). Proved (suffix _partial): the full statement when the Hessians are uniformly positive definite and eps is not below M*2^-25 (the solver's own tolerance)."
 ],
 "C64": [
  "auto",
  "C64_stops/C64_flag/C64_halts: any objective, any solver, any bounds, hypothesis that no recorded ratio is NaN. C64_ratios, C64_solvers, C64_steihaug and C64_default discharge that hypothesis for the solvers (C17_counterexample shows a Steihaug run in which it fails and which only maxiter ends). C64_ratios_one, C64_one, C64_default_one: problems in one variable, with bounds and any strategy."
 ],
 "C65": [
  "auto",
  "C65_visits: any step-back strategy, any bounded symmetric model Hessians; the exception (a proposal that is not a real vector, C52; only with two or more variables) is in the conclusion. C65_problem: hypotheses on problem and options only. C65_exact: every eps > 0 when no iterate is nudged. C65_reaches: total correctness, hypotheses on problem and options only: the run raises nothing and evaluates the objective at a nearly optimal point (or proposes a non-number) within boxBound iterations; reachEnv_accepted: the constructor accepts the configuration of the example."
 ],
 "C66": [
  "auto",
  "C66_independent holds for every floating point type; C66_never_raises for all extended reals; C66_total in exact arithmetic. The early return of conj_grad that would leave the step unset is shown unreachable (steihaug_no_early)."
 ],
 "C67": [
  "auto",
  "C67_visits: runs with any positive definite model Hessians (approximations included). C67_problem, C67_reaches: hypotheses on problem, options and routines only; for refine, and for one variable, there is no exception clause in the conclusion. newtonEnv_accepted: the constructor accepts the configuration of the example. Strategies truncate and mixed, and indefinite Hessians, are not covered for these solvers."
 ],
 "C68": [
  "auto",
  "C68_trust_region: one proposal; C68_minimize: whole runs without Hessian approximation; C68_broyden, C68_hybrid: whole runs with BFGS, DFP, Broyden(phi>=0) and HybridFixed, HybridFraction over these. With SR1 the claim is false, see C34_run_counterexample."
 ],
 "C69": [
  "auto",
  "Real arithmetic (Num) and exact linear algebra. C69_step: each iteration; C69_total: bound on iterations for any tolerances; C69_exact: exact minimizer with tolerances off; C69_minimized: existence form for all positive definite matrices. The starting point must not satisfy the gradient tolerance: there the code makes an iteration with a zero gradient."
 ],
 "C70": [
  "auto",
  "Any lawful float type. C70_table: normal returns; C70_columns: the columns read on their own; C70_warning: levels; C70_type, C70_type_unbounded: the labels of the steps; C70_any: also runs that raise; C70_aligned, C70_aligned_small: padding. From iteration 10000 on with a five-digit maxiter rows and header are misaligned by one column (example after C70_aligned_small): pads with len(str(iteration)) + 1 characters in a field of len(str(maxiter))."
 ],
 "C71": [
  "auto",
  "Extended reals with exact linear algebra. C71_step: one iteration; C71_left: after N+1 iterations; C71_returned: the returned result, with the one way out (GTOL triggered by the gradient of a rejected trial point, which the code tests); C71_one_dimension: the default solver with n = 1 stays at stationary points (the subspace is -g/H, which is zero)."
 ],
 "C72": [
  "auto",
  "C72_path, C72_prefix: any lawful float type, any clocks. C72_longer, C72_tighter: extended reals, same clock readings, finite relative tolerances of the looser optimizer (with frtol = inf and value 0 the code computes inf * 0 = NaN and the test fails)."
 ],
 "C73": [
  "auto",
  "Extended reals (exact arithmetic), exact linear-algebra routines, exact Hessians, no bounds. C73_iterations and C73_minimizer also assume an upper bound M on the curvatures. Example: Σ x²/2 + x³/6, not bounded below, default options, at most 4 iterations."
 ],
 "C74": [
  "auto",
  "Extended reals (exact arithmetic). The one assumption on routines outside the model: the scipy optimisation used by the refine strategy gives the same coefficients for a translated problem (RefineInvariant), which is trivial for the other strategies."
 ],
 "C75": [
  "auto",
  "Any lawful float type; nothing assumed about the step routine or the Hessian approximation. The objective must be deterministic (SameProblem); the two optimizers may differ in everything else except the bounds."
 ],
 "C76": [
  "auto",
  "Proved: objectives that return new arrays and leave the argument alone see exactly the value model (C76_fresh). False for reused gradient arrays: C76_counterexample (wrong gradient returned after a rejected step, default options), C76_frozen (BFGS/DFP never updated). C76_accepted_partial: without Hessian approximation and without rejected steps only grad_min can differ. C76_argument: what the objective writes to its argument is returned as x."
 ],
 "C77": [
  "auto",
  "C77_away (any arithmetic): same run if no entry is near a bound. C77_start, C77_moved (double precision): exactly where the run starts and that it continues as the float run from there. C77_counterexample: bounds 0, 1 and start 1: first call at 0 instead of 1-2.2e-14. C77_fixed_counterexample: equal bounds at an integer of magnitude 1 to 256 are refused."
 ],
 "C78": [
  "auto",
  "C78_constant: whole final state and outcome, from any state of the optimizer; C78_results, C78_exceptions: new optimizers. Exact arithmetic; not for residual mode, where the value is computed from the residuals."
 ],
 "C79": [
  "auto",
  "C79_order: whole final state and outcome from any state of the optimizer; C79_results, C79_exceptions: new optimizers. Exact arithmetic; the full-space solver is excluded by hypothesis (its eigendecomposition is in the coordinates themselves)."
 ],
 "C80": [
  "auto",
  "C80_rate, C80_iterations: any options; C80_minimizer: total correctness. Exact arithmetic. The basin size R may not be below M / (2^25 m), the tolerance of the solver; the tolerance gatol may be arbitrarily small."
 ],
 "C81": [
  "auto",
  "C81_dslam, C81_dsecular: derivatives; C81_shape: increasing and concave; C81_newton: convergence of Newton's method; C81_posdef, C81_indefinite: the solver returns the exact minimizer. The exceptional inputs (undivided coefficient at the start, hard case) are those of C22."
 ],
 "C82": [
  "auto",
  "C82_usable: attributes after an exception; C82_propagates: exceptions of the objective reach the caller and end the run."
 ],
 "C83": [
  "auto",
  "C83_keeps, C83_learns: hereditary property, at most n changes, exact after n. C83_counterexample: false part - a step along which the approximation is exact turns it into NaN."
 ],
 "C84": [
  "auto",
  "C84_visits, C84_stops, C84_total, C84_gtol (Steihaug), C84_newton (default and full-space solver). Example: x - log x on the positive numbers."
 ],
 "C85": [
  "auto",
  "C85_full, C85_two, C85_steihaug, C85_order, C85_inputs (the inputs occurring in runs without bounds are of this kind)."
 ],
 "C86": [
  "auto",
  "C86_step, C86_run, C86_problem, C86_steihaug; C86_sign shows that the assumption of positive definiteness is needed."
 ],
 "C87": [
  "auto",
  "exact real arithmetic. C87_step is one call of trust_region, C87_steihaug and C87_exact are whole runs; the alternative '.error diverges' means that the fuel of the model (number of iterations) ran out, at the same point in both runs. Excluded: bounds and the history file (theta and the infinity norm in it depend on coordinates), stationary starting points, 2D/full with indefinite Hessians (several minimizers are possible)."
 ],
 "C88": [
  "auto",
  "exact real arithmetic. C88_update is one update of the approximation, C88_steihaug and C88_exact are whole runs; '.error diverges' means that the fuel of the model ran out, at the same point in both runs. Excluded: bounds, history file, stationary starting points, other approximations (SR1, BB, BG: not always positive definite) and hess0 other than the identity."
 ],
 "C89": [
  "auto",
  "exact real arithmetic. C89_growth_bound holds for every subproblem solver; the convergence theorems are for 'steihaug' (the radius floor does not hold for '2D' and 'full' with growing matrices because their Newton step may exceed the radius by a fixed tolerance). C89_growing is the same for any approximation with at most linear growth. Excluded: bounds, DFP and Broyden with phi > 0."
 ],
 "C90": [
  "auto",
  "exact real arithmetic and exact linear-algebra routines; excluded: bounds and the Steihaug solver (for which C67/C63 need no definiteness). Strengthens C63, which assumes a uniform positive lower bound of the curvature for these solvers."
 ],
 "C91": [
  "auto",
  "exact real arithmetic; excluded: bounds. The analogue of C73/C80 for the third solver, with the order 3/2 that belongs to its stopping rule."
 ],
 "C92": [
  "auto",
  "exact real arithmetic. Extends C79 to subspace_dim='full' and to unrelated libraries, for positive definite Hessians and the reflecting strategies."
 ],
 "C93": [
  "auto",
  "exact real arithmetic. Extends C73 to problems with bounds; the minimum is in the interior of the box."
 ],
 "C94": [
  "auto",
  "exact real arithmetic; the function, step and relative gradient tolerances are switched off as in C65/C67. The alternative of an argument that is not a vector of numbers is a behaviour of the code (C52); it cannot occur with one variable."
 ],
 "C95": [
  "auto",
  "exact real arithmetic. Not claimed for the Steihaug solver (its accuracy min(1/2, sqrt(|g|)) |g| depends on the unit by design) and with bounds (theta = max(theta_max, 1 - |v g|) depends on it by design). The default solver has an absolute threshold (steps.py:317); C95_two assumes that the test comes out the same, C95_default_can_differ shows that it matters."
 ],
 "C50": [
  "auto",
  "C50_no_increase, C50_decrease: more than one variable, cut proposals. C50_one: one variable, every proposal, no hypothesis about NaN."
 ]
}