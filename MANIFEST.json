{
 "claims": [
  {
   "property": "C01",
   "status": "proved",
   "theorems": [
    "Fides.C01_adopted",
    "Fides.C01_current",
    "Fides.C01_returned"
   ],
   "note": ""
  },
  {
   "property": "C02",
   "status": "proved",
   "theorems": [
    "Fides.C02_start"
   ],
   "note": ""
  },
  {
   "property": "C03",
   "status": "proved",
   "theorems": [
    "Fides.C03_refused",
    "Fides.C03_accepted"
   ],
   "note": ""
  },
  {
   "property": "C04",
   "status": "proved",
   "theorems": [
    "Fides.C04_inside",
    "Fides.C04_exceeded"
   ],
   "note": ""
  },
  {
   "property": "C05",
   "status": "proved",
   "theorems": [
    "Fides.C05_best"
   ],
   "note": ""
  },
  {
   "property": "C06",
   "status": "proved",
   "theorems": [
    "Fides.C06_xmin",
    "Fides.C06_close"
   ],
   "note": "x_min equals the argument of the best call up to the in-place nudge (the array is shared with the current point); exact when the nudge does not act."
  },
  {
   "property": "C07",
   "status": "proved",
   "theorems": [
    "Fides.C07_decrease",
    "Fides.C07_returned"
   ],
   "note": ""
  },
  {
   "property": "C08",
   "status": "proved",
   "theorems": [
    "Fides.C08_one_call"
   ],
   "note": ""
  },
  {
   "property": "C09",
   "status": "proved",
   "theorems": [
    "Fides.C09_budget",
    "Fides.C09_calls",
    "Fides.C09_terminates"
   ],
   "note": ""
  },
  {
   "property": "C10",
   "status": "proved",
   "theorems": [
    "Fides.C10_error",
    "Fides.C10_flag"
   ],
   "note": ""
  },
  {
   "property": "C11",
   "status": "proved",
   "theorems": [
    "Fides.C11_sign"
   ],
   "note": ""
  },
  {
   "property": "C12",
   "status": "partial",
   "theorems": [
    "Fides.C12_gtol_partial",
    "Fides.C12_counterexample"
   ],
   "note": "Full claim is false of the code: C12_counterexample (the test is applied to a rejected trial point). C12_gtol_partial: true when the last step was accepted; the relative test then uses the previous value."
  },
  {
   "property": "C13",
   "status": "proved",
   "theorems": [
    "Fides.C13_ftol"
   ],
   "note": ""
  },
  {
   "property": "C14",
   "status": "proved",
   "theorems": [
    "Fides.C14_nonfinite"
   ],
   "note": ""
  },
  {
   "property": "C15",
   "status": "proved",
   "theorems": [
    "Fides.C15_derivatives",
    "Fides.C15_first",
    "Fides.C15_finite",
    "Fides.C15_returned"
   ],
   "note": ""
  },
  {
   "property": "C16",
   "status": "proved",
   "theorems": [
    "Fides.C16_rule",
    "Fides.C16_bound"
   ],
   "note": ""
  },
  {
   "property": "C17",
   "status": "partial",
   "theorems": [
    "Fides.C17_persistent",
    "Fides.C17_counterexample"
   ],
   "note": "Geometric decrease of the radius under consecutive rejections and its consequence, the DELTA stop."
  },
  {
   "property": "C18",
   "status": "partial",
   "theorems": [
    "Fides.C18_independent",
    "Fides.C18_switch",
    "Fides.C18_hybrid_counterexample"
   ],
   "note": "False for HybridFixed/HybridFraction (switch not reset) and for exitflag/tr_ratio before the first test; proved for all other schemes and reported state."
  },
  {
   "property": "C19",
   "status": "proved",
   "theorems": [
    "Fides.C19_time",
    "Fides.C19_start",
    "Fides.C19_real"
   ],
   "note": ""
  },
  {
   "property": "C20",
   "status": "proved",
   "theorems": [
    "Fides.C20_nan_iff",
    "Fides.C20_solve1d",
    "Fides.C20_nan"
   ],
   "note": "Includes the exact condition under which the answer is NaN (C20_nan_iff)."
  },
  {
   "property": "C21",
   "status": "proved",
   "theorems": [
    "Fides.C21_radius_total",
    "Fides.C21_radius",
    "Fides.C21_radius_hard",
    "Fides.C21_failed_search"
   ],
   "note": "The posdef branch accepts Newton steps up to 2^-26 beyond the radius, hence delta + 2^-26."
  },
  {
   "property": "C22",
   "status": "partial",
   "theorems": [
    "Fides.C22_exact_partial",
    "Fides.C22_total_partial",
    "Fides.C22_counterexample"
   ],
   "note": "False for indefinite B (counterexample); positive part assumes exact root finders."
  },
  {
   "property": "C23",
   "status": "proved",
   "theorems": [
    "Fides.C23_factor",
    "Fides.C23_feasible",
    "Fides.C23_strict"
   ],
   "note": ""
  },
  {
   "property": "C24",
   "status": "proved",
   "theorems": [
    "Fides.C24_best",
    "Fides.C24_nan_preferred"
   ],
   "note": ""
  },
  {
   "property": "C25",
   "status": "partial",
   "theorems": [
    "Fides.C25_value",
    "Fides.C25_step_partial",
    "Fides.C25_steihaug_uncut_partial",
    "Fides.C25_steihaug_counterexample"
   ],
   "note": "Steihaug proposals: s includes scaling*ss0 while ss0 is not scaled back; see theorem docstrings."
  },
  {
   "property": "C26",
   "status": "partial",
   "theorems": [
    "Fides.C26_counterexample",
    "Fides.C26_radius_partial",
    "Fides.C26_displacement_partial"
   ],
   "note": "False for the truncated 2D proposals: columns of the truncated basis are normalised one by one and may become parallel (C26_counterexample)."
  },
  {
   "property": "C27",
   "status": "proved",
   "theorems": [
    "Fides.C27_truncate",
    "Fides.C27_reflect",
    "Fides.C27_total"
   ],
   "note": ""
  },
  {
   "property": "C28",
   "status": "proved",
   "theorems": [
    "Fides.C28_no_early_return",
    "Fides.C28_terminates"
   ],
   "note": ""
  },
  {
   "property": "C29",
   "status": "proved",
   "theorems": [
    "Fides.C29_stationary",
    "Fides.C29_scaling",
    "Fides.C29_theta"
   ],
   "note": ""
  },
  {
   "property": "C30",
   "status": "proved",
   "theorems": [
    "Fides.C30_evaluations",
    "Fides.C30_current",
    "Fides.C30_returned",
    "Fides.C30_start"
   ],
   "note": ""
  },
  {
   "property": "C31",
   "status": "proved",
   "theorems": [
    "Fides.C31_secant",
    "Fides.C31_secant_pd",
    "Fides.C31_skip"
   ],
   "note": ""
  },
  {
   "property": "C32",
   "status": "proved",
   "theorems": [
    "Fides.C32_iterative",
    "Fides.C32_structured",
    "Fides.C32_structured_init",
    "Fides.C32_bg_not_symmetric"
   ],
   "note": ""
  },
  {
   "property": "C33",
   "status": "proved",
   "theorems": [
    "Fides.C33_step",
    "Fides.C33_positive_definite",
    "Fides.C33_bfgs_dfp",
    "Fides.C33_needs_curvature_condition"
   ],
   "note": ""
  },
  {
   "property": "C34",
   "status": "partial",
   "theorems": [
    "Fides.C34_sr1_partial",
    "Fides.C34_counterexample",
    "Fides.C34_degenerate",
    "Fides.C34_run_counterexample"
   ],
   "note": "Full claim is false of the code: C34_counterexample (0/0 makes the matrix NaN). C34_sr1_partial excludes exactly the zero denominator. C34_run_counterexample: in a run this ends in an exception, or in a returned Hessian of NaN; the example is x^2/2 from 1 with SR1()."
  },
  {
   "property": "C35",
   "status": "partial",
   "theorems": [
    "Fides.C35_bg",
    "Fides.C35_bb_never_updates",
    "Fides.C35_bb_counterexample"
   ],
   "note": "BG: proved. BB: false of the code (its update never changes the matrix), C35_bb_never_updates and C35_bb_counterexample."
  },
  {
   "property": "C36",
   "status": "proved",
   "theorems": [
    "Fides.C36_ssm",
    "Fides.C36_tssm",
    "Fides.C36_gnsbfgs"
   ],
   "note": ""
  },
  {
   "property": "C37",
   "status": "proved",
   "theorems": [
    "Fides.C37_gnsbfgs_pd",
    "Fides.C37_run"
   ],
   "note": ""
  },
  {
   "property": "C38",
   "status": "proved",
   "theorems": [
    "Fides.C38_fixed",
    "Fides.C38_fraction",
    "Fides.C38_irreversible"
   ],
   "note": ""
  },
  {
   "property": "C39",
   "status": "proved",
   "theorems": [
    "Fides.C39_fx"
   ],
   "note": ""
  },
  {
   "property": "C40",
   "status": "partial",
   "theorems": [
    "Fides.C40_iterative",
    "Fides.C40_switch",
    "Fides.C40_fx",
    "Fides.C40_structured",
    "Fides.C40_bb_counterexample"
   ],
   "note": "Proved for every scheme except BB, where it is false of the code (C40_bb_counterexample)."
  },
  {
   "property": "C41",
   "status": "proved",
   "theorems": [
    "Fides.C41_run",
    "Fides.C41_init",
    "Fides.C41_structured",
    "Fides.C41_shape",
    "Fides.C41_setMat"
   ],
   "note": ""
  },
  {
   "property": "C42",
   "status": "proved",
   "theorems": [
    "Fides.C42_count",
    "Fides.C42_refused",
    "Fides.C42_accepted",
    "Fides.C42_meaning"
   ],
   "note": ""
  },
  {
   "property": "C43",
   "status": "proved",
   "theorems": [
    "Fides.C43_unusable",
    "Fides.C43_least_squares"
   ],
   "note": "resfun=True without a hessian_update that needs residuals cannot be satisfied by any objective."
  },
  {
   "property": "C44",
   "status": "proved",
   "theorems": [
    "Fides.C44_exact",
    "Fides.C44_error",
    "Fides.C44_run"
   ],
   "note": ""
  },
  {
   "property": "C45",
   "status": "partial",
   "theorems": [
    "Fides.C45_exact",
    "Fides.C45_members",
    "Fides.C45_unknown",
    "Fides.C45_error",
    "Fides.C45_string_counterexample",
    "Fides.C45_string_consequence"
   ],
   "note": "Keys written as plain strings skip the enum check of subspace_solver/stepback_strategy; history_file=None is a TypeError; maxiter=inf raises OverflowError."
  },
  {
   "property": "C46",
   "status": "proved",
   "theorems": [
    "Fides.C46_exact",
    "Fides.C46_error"
   ],
   "note": ""
  },
  {
   "property": "C47",
   "status": "proved",
   "theorems": [
    "Fides.C47_complete",
    "Fides.C47_atomic",
    "Fides.C47_duplicate",
    "Fides.C47_off",
    "Fides.C47_row",
    "Fides.C47_columns",
    "Fides.C47_fval"
   ],
   "note": "One entry per iteration for every quantity; the group is written only after a normal return."
  },
  {
   "property": "C48",
   "status": "partial",
   "theorems": [
    "Fides.C48_sequential",
    "Fides.C48_concurrent_counterexample",
    "Fides.C48_lost_increment_counterexample",
    "Fides.C48_handlers",
    "Fides.C48_alone"
   ],
   "note": "Sequential calls proved; interleaved calls can attach two handlers (counterexample), and the unsynchronised read-then-write of the counter can lose an increment so that two loggers share a name (C48_lost_increment_counterexample)."
  },
  {
   "property": "C49",
   "status": "proved",
   "theorems": [
    "Fides.C49_basis"
   ],
   "note": ""
  },
  {
   "property": "C50",
   "status": "proved",
   "theorems": [
    "Fides.C50_no_increase",
    "Fides.C50_decrease",
    "Fides.C50_one"
   ],
   "note": "C50_no_increase, C50_decrease: more than one variable, cut proposals. C50_one: one variable, every proposal, no hypothesis about NaN."
  },
  {
   "property": "C51",
   "status": "proved",
   "theorems": [
    "Fides.C51_nudge",
    "Fides.C51_scaling",
    "Fides.C51_one_candidate",
    "Fides.C51_full_step"
   ],
   "note": ""
  },
  {
   "property": "C52",
   "status": "partial",
   "theorems": [
    "Fides.C52_finite_partial",
    "Fides.C52_start_partial",
    "Fides.C52_steihaug_counterexample",
    "Fides.C52_one",
    "Fides.C52_stuck_counterexample",
    "Fides.C52_reflect_counterexample"
   ],
   "note": "NaN proposals exist (counterexamples for n=1 with zero model Hessian, Steihaug at zero scaled gradient, tangent reflected step); infinities never appear. C52_one: with one variable and a nonzero scaled gradient (default solver: nonzero scaled Hessian) the trial point is a real number within the bounds."
  },
  {
   "property": "C53",
   "status": "proved",
   "theorems": [
    "Fides.C53_same_return",
    "Fides.C53_same_error"
   ],
   "note": "Simulation between the run with and without history_file."
  },
  {
   "property": "C54",
   "status": "proved",
   "theorems": [
    "Fides.C54_dfp",
    "Fides.C54_bfgs",
    "Fides.C54_family"
   ],
   "note": ""
  },
  {
   "property": "C55",
   "status": "proved",
   "theorems": [
    "Fides.C55_considered",
    "Fides.C55_reflected",
    "Fides.C55_truncated"
   ],
   "note": ""
  },
  {
   "property": "C56",
   "status": "proved",
   "theorems": [
    "Fides.C56_update",
    "Fides.C56_secant",
    "Fides.C56_positive_definite",
    "Fides.C56_ssm",
    "Fides.C56_tssm",
    "Fides.C56_gnsbfgs"
   ],
   "note": ""
  },
  {
   "property": "C57",
   "status": "proved",
   "theorems": [
    "Fides.C57_numbers",
    "Fides.C57_maxiter",
    "Fides.C57_choices",
    "Fides.C57_history"
   ],
   "note": ""
  },
  {
   "property": "C58",
   "status": "proved",
   "theorems": [
    "Fides.C58_returned",
    "Fides.C58_pass",
    "Fides.C58_current"
   ],
   "note": "Control-flow guarantees instantiated at binary64 with any tie rule and summation order."
  },
  {
   "property": "C59",
   "status": "partial",
   "theorems": [
    "Fides.C59_counterexample",
    "Fides.C59_inside_partial",
    "Fides.C59_run_partial"
   ],
   "note": "False of the code in double precision: C59_counterexample, with default options and a feasible start. C59_inside_partial and C59_run_partial prove what holds: plain steps with theta at most 1 - 2^-50 stay within the bounds whatever the roundings. Missing: reflected and truncated steps."
  },
  {
   "property": "C60",
   "status": "partial",
   "theorems": [
    "Fides.C60_counterexample",
    "Fides.C60_even_counterexample",
    "Fides.C60_kept_partial"
   ],
   "note": "False of the code in double precision (two counterexamples); C60_kept_partial gives a range of values where it holds."
  },
  {
   "property": "C61",
   "status": "partial",
   "theorems": [
    "Fides.C61_counterexample",
    "Fides.C61_inside_partial"
   ],
   "note": "False of the code in double precision for bounds of large magnitude; C61_inside_partial for magnitude at most 127."
  },
  {
   "property": "C62",
   "status": "proved",
   "theorems": [
    "Fides.C62_steihaug",
    "Fides.C62_stops",
    "Fides.C62_total",
    "Fides.C62_flag",
    "Fides.C62_gtol",
    "Fides.C62_rate"
   ],
   "note": "Exact arithmetic. C62_steihaug: visit of a small gradient; C62_stops: number of iterations; C62_total: normal return; C62_flag, C62_gtol: exit flag and stationarity; C62_rate: O(1/eps^2). Witness: half the squared norm in any dimension."
  },
  {
   "property": "C63",
   "status": "partial",
   "theorems": [
    "Fides.C63_visits_partial",
    "Fides.C63_stops_partial",
    "Fides.C63_total_partial",
    "Fides.C63_flag_partial",
    "Fides.C63_gtol_partial",
    "Fides.C63_stall_counterexample",
    "Fides.C63_counterexample"
   ],
   "note": "The statement is false for the default solver: C63_counterexample exhibits a smooth, bounded-below objective with bounded Hessians on which the run stops at once at a non-stationary point with DELTA_TOO_SMALL, whatever exact linear algebra is used (C63_stall_counterexample: the same for every singular semidefinite Hessian with the gradient in its kernel). Proved (suffix _partial): the full statement when the Hessians are uniformly positive definite and eps is not below M*2^-25 (the solver's own tolerance)."
  },
  {
   "property": "C64",
   "status": "proved",
   "theorems": [
    "Fides.C64_stops",
    "Fides.C64_flag",
    "Fides.C64_halts",
    "Fides.C64_ratios_one",
    "Fides.C64_one",
    "Fides.C64_default_one",
    "Fides.C64_ratios",
    "Fides.C64_solvers",
    "Fides.C64_steihaug",
    "Fides.C64_default"
   ],
   "note": "C64_stops/C64_flag/C64_halts: any objective, any solver, any bounds, hypothesis that no recorded ratio is NaN. C64_ratios, C64_solvers, C64_steihaug and C64_default discharge that hypothesis for the solvers (C17_counterexample shows a Steihaug run in which it fails and which only maxiter ends). C64_ratios_one, C64_one, C64_default_one: problems in one variable, with bounds and any strategy."
  },
  {
   "property": "C65",
   "status": "proved",
   "theorems": [
    "Fides.C65_measure",
    "Fides.C65_visits",
    "Fides.C65_exact",
    "Fides.C65_problem",
    "Fides.C65_reaches"
   ],
   "note": "C65_visits: any step-back strategy, any bounded symmetric model Hessians; the exception (a proposal that is not a real vector, C52; only with two or more variables) is in the conclusion. C65_problem: hypotheses on problem and options only. C65_exact: every eps > 0 when no iterate is nudged. C65_reaches: total correctness, hypotheses on problem and options only: the run raises nothing and evaluates the objective at a nearly optimal point (or proposes a non-number) within boxBound iterations; reachEnv_accepted: the constructor accepts the configuration of the example."
  },
  {
   "property": "C66",
   "status": "proved",
   "theorems": [
    "Fides.C66_independent",
    "Fides.C66_never_raises",
    "Fides.C66_total"
   ],
   "note": "C66_independent holds for every floating point type; C66_never_raises for all extended reals; C66_total in exact arithmetic. The early return of conj_grad that would leave the step unset is shown unreachable (steihaug_no_early)."
  },
  {
   "property": "C67",
   "status": "proved",
   "theorems": [
    "Fides.C67_visits",
    "Fides.C67_problem",
    "Fides.C67_reaches"
   ],
   "note": "C67_visits: runs with any positive definite model Hessians (approximations included). C67_problem, C67_reaches: hypotheses on problem, options and routines only; for refine, and for one variable, there is no exception clause in the conclusion. newtonEnv_accepted: the constructor accepts the configuration of the example. Strategies truncate and mixed, and indefinite Hessians, are not covered for these solvers."
  },
  {
   "property": "C68",
   "status": "proved",
   "theorems": [
    "Fides.C68_trust_region",
    "Fides.C68_minimize",
    "Fides.C68_broyden",
    "Fides.C68_hybrid"
   ],
   "note": "C68_trust_region: one proposal; C68_minimize: whole runs without Hessian approximation; C68_broyden, C68_hybrid: whole runs with BFGS, DFP, Broyden(phi>=0) and HybridFixed, HybridFraction over these. With SR1 the claim is false, see C34_run_counterexample."
  },
  {
   "property": "C69",
   "status": "proved",
   "theorems": [
    "Fides.C69_step",
    "Fides.C69_total",
    "Fides.C69_exact",
    "Fides.C69_minimized"
   ],
   "note": "Real arithmetic (Num) and exact linear algebra. C69_step: each iteration; C69_total: bound on iterations for any tolerances; C69_exact: exact minimizer with tolerances off; C69_minimized: existence form for all positive definite matrices. The starting point must not satisfy the gradient tolerance: there the code makes an iteration with a zero gradient."
  },
  {
   "property": "C70",
   "status": "proved",
   "theorems": [
    "Fides.C70_table",
    "Fides.C70_columns",
    "Fides.C70_warning",
    "Fides.C70_any",
    "Fides.C70_aligned",
    "Fides.C70_aligned_small",
    "Fides.C70_type",
    "Fides.C70_type_unbounded"
   ],
   "note": "Any lawful float type. C70_table: normal returns; C70_columns: the columns read on their own; C70_warning: levels; C70_type, C70_type_unbounded: the labels of the steps; C70_any: also runs that raise; C70_aligned, C70_aligned_small: padding. From iteration 10000 on with a five-digit maxiter rows and header are misaligned by one column (example after C70_aligned_small): pads with len(str(iteration)) + 1 characters in a field of len(str(maxiter))."
  },
  {
   "property": "C71",
   "status": "proved",
   "theorems": [
    "Fides.C71_step",
    "Fides.C71_left",
    "Fides.C71_returned",
    "Fides.C71_one_dimension"
   ],
   "note": "Extended reals with exact linear algebra. C71_step: one iteration; C71_left: after N+1 iterations; C71_returned: the returned result, with the one way out (GTOL triggered by the gradient of a rejected trial point, which the code tests); C71_one_dimension: the default solver with n = 1 stays at stationary points (the subspace is -g/H, which is zero)."
  },
  {
   "property": "C72",
   "status": "proved",
   "theorems": [
    "Fides.C72_path",
    "Fides.C72_prefix",
    "Fides.C72_longer",
    "Fides.C72_tighter"
   ],
   "note": "C72_path, C72_prefix: any lawful float type, any clocks. C72_longer, C72_tighter: extended reals, same clock readings, finite relative tolerances of the looser optimizer (with frtol = inf and value 0 the code computes inf * 0 = NaN and the test fails)."
  },
  {
   "property": "C73",
   "status": "proved",
   "theorems": [
    "Fides.C73_step",
    "Fides.C73_rate",
    "Fides.C73_iterations",
    "Fides.C73_minimizer"
   ],
   "note": "Extended reals (exact arithmetic), exact linear-algebra routines, exact Hessians, no bounds. C73_iterations and C73_minimizer also assume an upper bound M on the curvatures. Example: \u03a3 x\u00b2/2 + x\u00b3/6, not bounded below, default options, at most 4 iterations."
  },
  {
   "property": "C74",
   "status": "proved",
   "theorems": [
    "Fides.C74_translation",
    "Fides.C74_results"
   ],
   "note": "Extended reals (exact arithmetic). The one assumption on routines outside the model: the scipy optimisation used by the refine strategy gives the same coefficients for a translated problem (RefineInvariant), which is trivial for the other strategies."
  },
  {
   "property": "C75",
   "status": "proved",
   "theorems": [
    "Fides.C75_best",
    "Fides.C75_returned"
   ],
   "note": "Any lawful float type; nothing assumed about the step routine or the Hessian approximation. The objective must be deterministic (SameProblem); the two optimizers may differ in everything else except the bounds."
  },
  {
   "property": "C76",
   "status": "partial",
   "theorems": [
    "Fides.C76_fresh",
    "Fides.C76_counterexample",
    "Fides.C76_frozen",
    "Fides.C76_accepted_partial",
    "Fides.C76_argument"
   ],
   "note": "Proved: objectives that return new arrays and leave the argument alone see exactly the value model (C76_fresh). False for reused gradient arrays: C76_counterexample (wrong gradient returned after a rejected step, default options), C76_frozen (BFGS/DFP never updated). C76_accepted_partial: without Hessian approximation and without rejected steps only grad_min can differ. C76_argument: what the objective writes to its argument is returned as x."
  },
  {
   "property": "C77",
   "status": "partial",
   "theorems": [
    "Fides.C77_away",
    "Fides.C77_start",
    "Fides.C77_moved",
    "Fides.C77_fixed_counterexample",
    "Fides.C77_counterexample"
   ],
   "note": "C77_away (any arithmetic): same run if no entry is near a bound. C77_start, C77_moved (double precision): exactly where the run starts and that it continues as the float run from there. C77_counterexample: bounds 0, 1 and start 1: first call at 0 instead of 1-2.2e-14. C77_fixed_counterexample: equal bounds at an integer of magnitude 1 to 256 are refused."
  },
  {
   "property": "C78",
   "status": "proved",
   "theorems": [
    "Fides.C78_constant",
    "Fides.C78_results",
    "Fides.C78_exceptions"
   ],
   "note": "C78_constant: whole final state and outcome, from any state of the optimizer; C78_results, C78_exceptions: new optimizers. Exact arithmetic; not for residual mode, where the value is computed from the residuals."
  },
  {
   "property": "C79",
   "status": "proved",
   "theorems": [
    "Fides.C79_order",
    "Fides.C79_results",
    "Fides.C79_exceptions"
   ],
   "note": "C79_order: whole final state and outcome from any state of the optimizer; C79_results, C79_exceptions: new optimizers. Exact arithmetic; the full-space solver is excluded by hypothesis (its eigendecomposition is in the coordinates themselves)."
  },
  {
   "property": "C80",
   "status": "proved",
   "theorems": [
    "Fides.C80_rate",
    "Fides.C80_iterations",
    "Fides.C80_minimizer"
   ],
   "note": "C80_rate, C80_iterations: any options; C80_minimizer: total correctness. Exact arithmetic. The basin size R may not be below M / (2^25 m), the tolerance of the solver; the tolerance gatol may be arbitrarily small."
  },
  {
   "property": "C81",
   "status": "proved",
   "theorems": [
    "Fides.C81_dslam",
    "Fides.C81_dsecular",
    "Fides.C81_shape",
    "Fides.C81_newton",
    "Fides.C81_posdef",
    "Fides.C81_indefinite"
   ],
   "note": "C81_dslam, C81_dsecular: derivatives; C81_shape: increasing and concave; C81_newton: convergence of Newton's method; C81_posdef, C81_indefinite: the solver returns the exact minimizer. The exceptional inputs (undivided coefficient at the start, hard case) are those of C22."
  },
  {
   "property": "C82",
   "status": "proved",
   "theorems": [
    "Fides.C82_usable",
    "Fides.C82_propagates"
   ],
   "note": "C82_usable: attributes after an exception; C82_propagates: exceptions of the objective reach the caller and end the run."
  },
  {
   "property": "C83",
   "status": "partial",
   "theorems": [
    "Fides.C83_keeps",
    "Fides.C83_learns",
    "Fides.C83_counterexample"
   ],
   "note": "C83_keeps, C83_learns: hereditary property, at most n changes, exact after n. C83_counterexample: false part - a step along which the approximation is exact turns it into NaN."
  },
  {
   "property": "C84",
   "status": "proved",
   "theorems": [
    "Fides.C84_visits",
    "Fides.C84_stops",
    "Fides.C84_total",
    "Fides.C84_gtol",
    "Fides.C84_newton"
   ],
   "note": "C84_visits, C84_stops, C84_total, C84_gtol (Steihaug), C84_newton (default and full-space solver). Example: x - log x on the positive numbers."
  },
  {
   "property": "C85",
   "status": "proved",
   "theorems": [
    "Fides.C85_full",
    "Fides.C85_two",
    "Fides.C85_steihaug",
    "Fides.C85_order",
    "Fides.C85_inputs"
   ],
   "note": "C85_full, C85_two, C85_steihaug, C85_order, C85_inputs (the inputs occurring in runs without bounds are of this kind)."
  },
  {
   "property": "C86",
   "status": "proved",
   "theorems": [
    "Fides.C86_step",
    "Fides.C86_run",
    "Fides.C86_problem",
    "Fides.C86_steihaug",
    "Fides.C86_sign"
   ],
   "note": "C86_step, C86_run, C86_problem, C86_steihaug; C86_sign shows that the assumption of positive definiteness is needed."
  },
  {
   "property": "C87",
   "status": "proved",
   "theorems": [
    "Fides.C87_step",
    "Fides.C87_steihaug",
    "Fides.C87_exact"
   ],
   "note": "exact real arithmetic. C87_step is one call of trust_region, C87_steihaug and C87_exact are whole runs; the alternative '.error diverges' means that the fuel of the model (number of iterations) ran out, at the same point in both runs. Excluded: bounds and the history file (theta and the infinity norm in it depend on coordinates), stationary starting points, 2D/full with indefinite Hessians (several minimizers are possible)."
  },
  {
   "property": "C88",
   "status": "proved",
   "theorems": [
    "Fides.C88_update",
    "Fides.C88_steihaug",
    "Fides.C88_exact"
   ],
   "note": "exact real arithmetic. C88_update is one update of the approximation, C88_steihaug and C88_exact are whole runs; '.error diverges' means that the fuel of the model ran out, at the same point in both runs. Excluded: bounds, history file, stationary starting points, other approximations (SR1, BB, BG: not always positive definite) and hess0 other than the identity."
  },
  {
   "property": "C89",
   "status": "proved",
   "theorems": [
    "Fides.C89_growth_bound",
    "Fides.C89_growing",
    "Fides.C89_bfgs",
    "Fides.C89_stops",
    "Fides.C89_returns",
    "Fides.C89_flag",
    "Fides.C89_gtol"
   ],
   "note": "exact real arithmetic. C89_growth_bound holds for every subproblem solver; the convergence theorems are for 'steihaug' (the radius floor does not hold for '2D' and 'full' with growing matrices because their Newton step may exceed the radius by a fixed tolerance). C89_growing is the same for any approximation with at most linear growth. Excluded: bounds, DFP and Broyden with phi > 0."
  },
  {
   "property": "C90",
   "status": "proved",
   "theorems": [
    "Fides.C90_visits",
    "Fides.C90_stops",
    "Fides.C90_total",
    "Fides.C90_flag",
    "Fides.C90_gtol"
   ],
   "note": "exact real arithmetic and exact linear-algebra routines; excluded: bounds and the Steihaug solver (for which C67/C63 need no definiteness). Strengthens C63, which assumes a uniform positive lower bound of the curvature for these solvers."
  },
  {
   "property": "C91",
   "status": "proved",
   "theorems": [
    "Fides.C91_step",
    "Fides.C91_rate",
    "Fides.C91_global",
    "Fides.C91_iterations",
    "Fides.C91_minimizer"
   ],
   "note": "exact real arithmetic; excluded: bounds. The analogue of C73/C80 for the third solver, with the order 3/2 that belongs to its stopping rule."
  },
  {
   "property": "C92",
   "status": "proved",
   "theorems": [
    "Fides.C92_step",
    "Fides.C92_run",
    "Fides.C92_problem"
   ],
   "note": "exact real arithmetic. Extends C79 to subspace_dim='full' and to unrelated libraries, for positive definite Hessians and the reflecting strategies."
  },
  {
   "property": "C93",
   "status": "proved",
   "theorems": [
    "Fides.C93_step",
    "Fides.C93_rate",
    "Fides.C93_iterations",
    "Fides.C93_minimizer"
   ],
   "note": "exact real arithmetic. Extends C73 to problems with bounds; the minimum is in the interior of the box."
  },
  {
   "property": "C94",
   "status": "proved",
   "theorems": [
    "Fides.C94_measure",
    "Fides.C94_gap",
    "Fides.C94_minimizer",
    "Fides.C94_default",
    "Fides.C94_steihaug"
   ],
   "note": "exact real arithmetic; the function, step and relative gradient tolerances are switched off as in C65/C67. The alternative of an argument that is not a vector of numbers is a behaviour of the code (C52); it cannot occur with one variable."
  },
  {
   "property": "C95",
   "status": "proved",
   "theorems": [
    "Fides.C95_step",
    "Fides.C95_step_two",
    "Fides.C95_full",
    "Fides.C95_two",
    "Fides.C95_default_can_differ"
   ],
   "note": "exact real arithmetic. Not claimed for the Steihaug solver (its accuracy min(1/2, sqrt(|g|)) |g| depends on the unit by design) and with bounds (theta = max(theta_max, 1 - |v g|) depends on it by design). The default solver has an absolute threshold (steps.py:317); C95_two assumes that the test comes out the same, C95_default_can_differ shows that it matters."
  }
 ]
}