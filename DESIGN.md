# Formal model of fides (fides-dev/fides 0.8.0) in Lean 4

## 1. Approach

The Python sources are modelled function by function in Lean 4 (`lean/Verif/Model/*.lean`).  All arithmetic
is written against a type class `FloatOps F` (the numpy/Python float operations that fides uses: `+ - * /`,
`abs`, `sqrt`, `copysign`, comparisons that are false on NaN, `isfinite`, `inf`, `nan`, literals, summation),
so that one and the same model can be read

* over **any** floating point arithmetic (`LawfulFloat F` lists the few order/sign laws of IEEE arithmetic that
  are used): control-flow properties (feasibility check, minimum tracking, descent, budget, exit flags,
  histories) are proved at this level and therefore do not assume exact arithmetic;
* over `Num = ℝ ∪ {+inf, -inf, nan}`, exact real arithmetic with IEEE special values: numerical properties
  (feasibility of steps, trust-region bounds, optimality, secant equations, definiteness, CG termination) are
  proved here.  NaN/inf producing inputs are not excluded by the type: `0/0`, `sqrt(-1)`, `inf-inf` give `nan`
  exactly where numpy gives it;
* over Lean's `Float` (IEEE doubles): the model is executable, used only for sanity runs, never in proofs.

External routines (`scipy.linalg.eig`, `lstsq`, `newton`, `brentq`, `minimize(trust-constr)`, the clock, the user's
objective) are parameters (`Oracles`, `Env`).  Theorems either hold for every behaviour of them or state the
contract they need as an explicit hypothesis.

Exceptions are values (`Except (PyErr × State)`), loops take fuel and "out of fuel" is a distinct
outcome; termination theorems show that a stated amount of fuel always suffices.

## 2. Layout (planned)

| file | models |
|---|---|
| `Verif/Float.lean`, `Verif/Num.lean` | arithmetic classes, laws, the exact instance |
| `Verif/Model/Constants.lean` | `fides/constants.py` |
| `Verif/Model/Logging.lean` | `fides/logging.py` (sequential and interleaved) |
| `Verif/Model/Hessian.lean` | `fides/hessian_approximation.py` |
| `Verif/Model/Subproblem.lean` | `fides/subproblem.py` |
| `Verif/Model/Steps.lean` | `fides/steps.py` |
| `Verif/Model/TrustRegion.lean` | `fides/stepback.py`, `fides/trust_region.py` |
| `Verif/Model/Funeval.lean`, `Verif/Model/Minimize.lean` | `fides/minimize.py` |
| `Verif/Model/Log.lean` | the progress log of `fides/minimize.py` |
| `Verif/Spec/*.lean` | independent specifications (feasible box, quadratic model, secant, SPD, KKT ...) |
| `Verif/Lemmas/*.lean` | helper lemmas |
| `Verif/Props/*.lean` | one theorem group per property, with witnesses |

## 3. Plan per property

| id | model part | proof |
|---|---|---|
| C01 | `Optimizer.minimize/update/check_in_bounds` | invariant over the loop, any lawful arithmetic; exact for the nudge |
| C02, C03 | `make_non_degenerate`, `check_in_bounds`, start of `minimize` | case analysis per coordinate |
| C04 | whole pipeline `trust_region` + loop | invariant "each coordinate NaN or feasible" through every candidate; accepted => finite predicted value => finite step |
| C05, C06 | loop with ghost evaluation log, object identity of `x`/`x_min` | invariant over the log; witness of the aliasing nudge |
| C07 | `update_tr_radius`, `update` | sign laws; induction |
| C08 | loop | invariant over the log |
| C09 | `check_continue` | measure `ceil(maxiter) - iteration`, fuel theorem |
| C10, C11, C12, C13 | `check_convergence`, `check_continue` | decision logic + loop invariant; witness against C12 |
| C14, C15 | `update_tr_radius`, `check_finite`, `track_minimum` | decision logic + invariant |
| C16, C17 | `update_tr_radius` | decision logic; induction for `gamma^k` bounds |
| C18 | `_reset`, `minimize`, hessian `_init_mat` | simulation: the run reads no stale field; witness for the hybrid switch |
| C19 | `check_continue` | decision logic |
| C20 | 1D solver | real analysis of a quadratic on an interval |
| C21, C22 | n-D solver, `slam`, `secular` | orthonormal diagonalisation; Moré–Sorensen sufficiency; witness |
| C23 | `step_back` | extended-real case analysis |
| C24 | argmin selection | list induction |
| C25, C26, C27 | `steps.py`, `stepback.py` | invariants per candidate; measure on nonzero rows; witnesses |
| C28 | Steihaug loop | CG orthogonality invariants, dimension bound |
| C29, C30, C51 | `get_affine_scaling` + pipeline | case analysis, loop invariant |
| C31–C37, C40 | `hessian_approximation.py` | matrix algebra over ℝ, induction over update histories; witnesses |
| C38, C39 | hybrid schemes | state-machine induction |
| C41, C42, C43, C44 | `FunEvaluator`, `Funout.checkdims`, `_init_mat`, `set_mat` | decision logic on shapes |
| C45, C46 | `validate_options`, `Optimizer.__init__` | decision logic, induction over the dict |
| C47 | `track_history` and file write | invariant over the loop and over run sequences |
| C48 | `create_logger` | induction; interleaving witness |
| C49, C50 | `TRStep2D`, `GradientStep`, selection | linear algebra |
| C52 | `steps.py`, `subproblem.py` | invariant "no infinity" per candidate; witnesses for NaN; in one variable the proposal is the minimizer on the interval, shortened (`Props/OneStep.lean`) |
| C53 | `minimize` with and without recording | simulation of the two runs |
| C54 | `broyden_class_update` | matrix identities checked on vectors (`mulVec`), for all dimensions |
| C55 | `TRStepReflected`, `TRStepTruncated`, `step_back` | case analysis of the blocking coordinates, per candidate; induction over the two loops for the list of candidates (Spec/Considered.lean) |
| C56 | `Optimizer.update` in the loop | one-pass theorem for every scheme, induction over the loop for definiteness; structured schemes on least-squares problems (`Spec/Residuals.lean`) |
| C57 | `get_option`, `DEFAULT_OPTIONS` | induction over the dict; independent table of the defaults |
| C58 | the whole of `minimize` over `Dbl R` (binary64 values, round to nearest with any tie rule, dot products summed in any order) | instance of `LawfulFloat` proved for `Dbl R`, then the laws-only theorems |
| C59 | `minimize` with the real `trust_region` over `Dbl R` | a complete run computed symbolically with exact roundings; positive part: error analysis of the cut step |
| C60, C61 | `make_non_degenerate`, `check_in_bounds` over `Dbl R` | spacing of the format (`isB64_gap`, `isB64_between`), monotonicity of rounding |
| C62 | the run (`LoopHead`, `Pass`) over exact reals with an objective described by a function, its gradient and constants (`Spec/Smooth.lean`) | Cauchy decrease of Steihaug's first step and monotonicity of the CG iterates, descent lemma, counting of successful and shrinking passes |
| C63 | as C62, with `solve_nd`/`TRStep2D`/`TRStepFull` over any routines that meet `Spec/Routines.lean` (`ExactRoutines`) | positive definite Hessians: the step is the Newton step or is on the boundary (Moré–Sorensen), both give sufficient decrease; counterexample: singular semidefinite Hessian with the gradient in its kernel |
| C64 | the loop of `minimize` with an arbitrary (even call-dependent) objective above `fmin` | potential argument: an iteration whose ratio exceeds `mu` lowers the value by `fatol` or converges; every other one multiplies the radius by at most `gamma1`; the radius stays above 2^-52. `C64_ratios` (finite steps, C52) discharges the no-NaN hypothesis for the solvers, `C64_ratios_one` in one variable |
| C65 | runs on smooth objectives in a box (`Spec.BoxRun`, `Spec.SmoothOn`), the affine scaling, the gradient candidate and the acceptance rule | the gradient candidate (or the unrestricted CG step) gives a Cauchy decrease in scaled variables that survives the cut at the bounds; descent lemma within the box; nudging as a perturbation; counting of long and shrinking iterations. With one variable every base step minimizes the model on the interval inside the bounds (`Lemmas/OneVariable.lean`), and no proposal is without a number. `C65_problem` has hypotheses on the problem and options only, `C65_reaches` adds that the run gets there without an exception, `C65_measure` ties the measure to first-order optimality |
| C66 | `trust_region` with the external routines as arbitrary functions (`Oracles`) | every subproblem on this path has at most one column, so the multi-dimensional solver and its routines are unreachable; with C27, C28 for termination |
| C67 | as C65, with the two-dimensional and full-space solvers and the external routines as exact functions (`Spec.NewtonSolver`, `Spec.ExactRoutines`) | the iterates stay strictly inside, so the scaled Hessian is positive definite; the subproblem step is the Newton step or lies on the sphere, and does at least as well as the Cauchy point of its subspace, which contains the gradient; the cut at the bounds keeps a share of the decrease; one variable and counting as in C65 |
| C68 | as C27 (loops of the step-back and of the bracket search), with external routines that may raise what their documentation allows (`Spec.DocumentedErrors`), and the driver | the bracket handed to `brentq` has a change of sign; every loop ends; every candidate list is nonempty; at each loop head the data are numbers (invariant), so no check of the driver raises |
| C69 | as C63, with the objective `Spec.quadF`, `Spec.quadG` and constant Hessian | the proposal minimizes the model on the part of the ball that lies in a subspace containing the Newton step, so it is the Newton step or lies on the sphere; the model is exact, so the ratio is 1; induction over loop heads: the radius is delta_init gamma2^k until the minimizer is reached, and the distance to the minimizer is bounded by the start value |
| C70 | `Model/Log.lean`: the lines of every call of the logger at level INFO and above along `setup`, `iterate`, `loop`, `minimize`; numbers unformatted, padding of the first and the step column as strings | induction over the loop, with the decomposition of a pass used for C07/C10/C47; each row is compared with the loop heads before and after its pass |
| C71 | the same model as C63 (`Model/Subproblem`, `Model/Steps`, `Model/Minimize`), `ExactRoutines`; `Spec/Saddle.lean` says what a stationary point that is no minimum is | the hard case of the subproblem returns the boundary point on the lowest eigenvector (`Lemmas/Saddle.lean`); Taylor bound gives acceptance once the radius is small; induction over the iterations (`Lemmas/SaddleRun.lean`) |
| C72 | the whole of `Model/Minimize`; `Spec/Stopping.lean`: what two optimizers share, and when one is stricter | simulation: a loop pass commutes with forgetting flags and clock readings (`Lemmas/Stopping.lean`), induction over iterations; the convergence and time tests are monotone in tolerances and limits |
| C73 | the whole of `Model/Minimize`, `Model/TrustRegion`, `Model/Steps`, `Model/Subproblem` on the extended reals; `Spec/Local.lean`: minimum with positive curvature and Lipschitz Hessian, size of the region, the region | Taylor estimates along segments (`Lemmas/Taylor.lean`: growth lemma from derivative bounds, Newton's error `L/2 d²`), one pass (`Lemmas/LocalRun.lean`: ratio at least eta, the sublevel component is not left by a continuity argument), induction over iterations; total correctness by the core shared with C69 |
| C74 | the whole of `Model/Minimize`, `Model/TrustRegion`, `Model/Steps` on the extended reals; `Spec/Translation.lean`: moved points, evaluations and states, a translated problem, a `minimize`-routine of scipy that does not look at absolute positions | equivariance lemma for every function of the model (`Lemmas/Translation.lean`, `mv_*`), composed to `minimize` |
| C75 | `Model/Minimize` for any lawful float type; `Spec/Restart.lean`: two optimizers for one problem, distance from the bounds | every logged evaluation is a call of the objective (`head_logged`, induction over iterations) + C06/C08 for the earlier run + the head invariant for the later |
| C76 | `Model/Memory.lean`: the loop of `minimize` with the identity of the arrays returned by the objective (gradient, res, sres) and of the array it receives | simulation against the value model for fresh arrays (`C76_fresh`), counterexample run in double precision (`C76_counterexample`), invariant of a frozen Broyden-class matrix (`C76_frozen`), simulation up to grad_min for runs that accept every step (`C76_accepted_partial`) |
| C77 | `Model/IntStart.lean`: `minimize` with an integer array as `self.x` until the first accepted step; `Spec/IntStart.lean`: truncation, the moved integer | double precision with any tie rule: exact position after `make_non_degenerate` (`nudgeInt_moved`: nearest doubles around an integer), first objective call or refusal, transfer to the float run from the moved point |
| C78 | `Spec/Raised.lean`: the objective plus a constant, states with raised values; the whole of `minimize` | exact arithmetic with special values: simulation of each function of `minimize.py` (`Lemmas/Raised.lean`), by induction on the number of iterations |
| C79 | `Spec/Permuted.lean`: problem, state, step with variables in another order; all of `minimize`, `trust_region`, steps (except `TRStepFull`), Hessian approximations | exact arithmetic with special values: equivariance of each function (`Lemmas/Permuted.lean`, `Lemmas/PermutedRun.lean`), by induction on the number of iterations |
| C80 | `Spec/Convex.lean`: strongly convex objectives (derivatives and curvature bounds only); all of `minimize`, `trust_region`, `TRStep2D`/`TRStepFull`, subproblem solver | C63 applied with gradient threshold `m R` brings the run into the basin of C73 with a radius above the floor; C73 from there; the reported point by C05/C06 |
| C81 | `slam`, `dslam`, `secular`, `dsecular`, the bracketing loop and `solveNd` of `Model/Subproblem.lean`; `Spec/Secular.lean`: Newton iterates, idealised root finders | derivative rules; concavity by Jensen's inequality for x^(-2) (tangent inequality); Newton by induction between start and root; root by the intermediate value theorem; bracketing loop by induction; optimality by Moré–Sorensen |
| C82 | all of `minimize` with its error paths (the model returns the optimizer's attributes at the point of failure); `Spec/Exceptions.lean` | induction over the passes (loop-head invariant), case distinction over the places that can raise |
| C83 | `SR1` in `Model/Hessian.lean` and all of `minimize` | hereditary property by symmetry (z·v = s·(A-B)v = 0), induction over the passes, dimension of the space of agreement grows with every change |
| C84 | all of `minimize` with an objective defined on a set (`Spec/Domain.lean`) | the counting argument of C62/C63 with a floor for the radius that also covers undefined trial points: those are at least r away, so the radius they leave is at least min(gamma1, 1/4) times r |
| C85 | `trust_region` on unbounded problems, all three solvers (`Spec/Compare.lean`) | More-Sorensen conditions of the reduced problem give optimality over the spanned subspace; for truncated CG the first line search is optimal on its line and later passes only decrease the model |
| C86 | `solve_nd_trust_region_subproblem`, `trust_region` and `minimize` under two different exact linear algebra routines | the minimiser of a positive definite model over a ball is unique, so both routines give the same reduced step; equal proposals at all loop heads give equal runs by induction |
| C87 | two runs of the whole optimizer without bounds, the second on the objective in the coordinates Q x (`Spec/Rotation.lean`) | step level: the CG iterates of the second problem are Q times those of the first; for 2D/full both solutions are the unique minimizer of the model over the (subspace of the) ball, which Q preserves; run level: induction on the iterations with the invariant 'the second state is the first one with points, gradients and Hessian transformed', lemmas that radius update, convergence test, continue test and minimum tracking only read norms and values (`Lemmas/Rotation.lean`, `Lemmas/RotationRun.lean`, `Props/Rotation.lean`) |
| C88 | two runs of the whole optimizer without bounds with a Broyden-class approximation, the second on the objective in the coordinates Q x (`QuasiRot` in `Spec/Rotation.lean`) | the update formula commutes with conjugation (it uses B only through B s and inner products), keeps symmetry and positive definiteness (`rbroyden_PD`), so the step-level result of C87 applies in every iteration; induction on the iterations (`Lemmas/RotationQuasi.lean`, `Props/RotationQuasi.lean`) |
| C89 | a whole run of the optimizer with `BFGS()` and the Steihaug solver on an unbounded convex problem, exact arithmetic (`AboveTangents`, `growthBound` in `Spec/Growth.lean`) | co-coercivity of the gradient bounds y yᵀ/yᵀs by L, so one update raises the bound of the matrix by at most L; a potential made of the objective gap and log(radius * bound)/bound decreases in every iteration by a multiple of 1/bound, and the harmonic sum diverges (`Lemmas/Growth.lean`, `Lemmas/BfgsConvex.lean`, `Props/Bfgs.lean`) |
| C90 | a whole run with the default or full-space solver on an unbounded problem, exact arithmetic and exact linear algebra (`definiteBound` in `Spec/Definite.lean`, the convergence vocabulary of C63) | either the gradient line lies in the searched subspace (then at least the Cauchy decrease up to the solver's tolerance), or the part of the gradient orthogonal to the Newton direction is below 2^-52, and then the Newton step itself, or its clipped version, decreases the model as much as the gradient up to a factor 1/2 (`Lemmas/Definite.lean`, `Props/Definite.lean`) |
| C91 | a whole run with the Steihaug solver on an unbounded problem, exact arithmetic (`InexactSize`, `rateConst` in `Spec/Inexact.lean`, the regions of C73/C80) | the CG iterates of a positive definite model lie on the ball's inside while the gradient is shorter than m times the radius, so the loop ends by its residual test; Taylor's formula for value and gradient gives acceptance and the 3/2 recursion; the global part combines the counting argument of C62 with the region (`Lemmas/SteihaugRay.lean`, `Lemmas/InexactRun.lean`, `Props/Inexact.lean`) |
| C92 | `minimize` on a problem and on its reordered copy (`PermutedProblem` of C79), any exact routines for each | C79 covers the solvers that treat the search basis symmetrically; for the full space the solution of a positive definite subproblem is unique, so it does not depend on the order of the identity's columns; a run does not use the coordinates of the search basis (`Lemmas/PermutedFull.lean`); C86's argument removes the relation between the libraries (`Props/PermutedFull.lean`) |
| C93 | `minimize` with bounds near a curved minimum in the interior of the box, `ExactRoutines` as in C67 and C73 | the scaled Newton step solves (H + E) s = -g with a diagonal E whose entries are at most 2/w times the gradient's length, so it differs from Newton's step by a second-order term (`Lemmas/InteriorMath.lean`); it fits into the trust region and stays inside the box, so the solver of the positive definite subproblem returns it unchanged (`Lemmas/InteriorNewton.lean`); ratio test by a Taylor estimate; induction over the passes (`Props/InteriorConvergence.lean`) |
| C94 | `minimize` on problems that are convex in a box (`Spec/BoxConvex.lean`: the objective lies above its tangents; the result as `Solved`), as in C65, C67 and C68 | the optimality measure bounds the gap to the minimum (Cauchy-Schwarz, `C94_measure`); C65/C67 show that the run meets a point with a small measure before it ends, C68 that it returns, C05/C06 that nothing evaluated is better than what is reported (`Props/BoxConvex.lean`) |
| C95 | two runs of `minimize`, the second with the objective and the absolute tolerances multiplied by c (`Spec/Units.lean`: `Multiplies`, `StTimes`) | the proposals are the same because the minimizer of a strictly convex model over the ball is unique and the ratios of the radius update and all convergence tests are homogeneous; induction over the loop (`Lemmas/UnitsRun.lean`, `Lemmas/UnitsStep.lean`, `Props/Units.lean`) |

## 4. Trusted base

* Lean 4.33's kernel and the three standard axioms `propext`, `Classical.choice`, `Quot.sound` (Mathlib's definitions of ℝ,
  matrices and square roots are used as they are).  No axiom is declared, no proof is left open, no compiled evaluation is used.
* The reading of the Python sources: every model definition cites the lines of `/repo` it was written from.  Nothing in Lean
  can check that the reading is right; section 5 lists what is simplified.
* Semantics assumed for Python/numpy: comparisons with NaN are false; `np.nanmin`, `min`, `max`, `np.min`, `np.max` treat NaN and
  ties as in `Verif/Float.lean` (`nanmin2`, `pyMin`, `pyMax`, `npMin2`, `npMax2` are separate functions because they differ); a dict with
  `str`-enum keys finds the plain string as the same key; `int(inf)` raises OverflowError, `int(nan)` ValueError; sparse diagonal matrices
  do not store zeros, so `0 * nan` and `0 * inf` never arise in products with the scaling matrix (`sdot`).
* External routines are parameters.  The theorems that need a contract name it: `FiniteOracles` (finite numbers in, finite numbers out),
  `ExactEig` (an orthonormal eigendecomposition of a symmetric matrix – the code uses `scipy.linalg.eig`, the non-symmetric driver, so the
  orthonormality is an assumption about LAPACK, not a guarantee of its interface), the root finders return a root of the secular equation
  (`FindsRoots`), `TerminatingOracles` (library calls return or raise).  The time returned by `time.time()`, the objective's answers, and `uuid1` are
  arbitrary sequences.
* Exact arithmetic: theorems about `Num` are about real arithmetic with NaN and infinities.  They say nothing about rounding.  Theorems
  stated for every `F` with `[LawfulFloat F]` use only order and sign laws which IEEE doubles satisfy (`Verif/Float.lean` lists them with the
  reason); `Num` is proved to be an instance, and so are the doubles `Dbl R` of `Verif/Binary64.lean`: the values `m * 2^e` with
  `|m| < 2^53`, `-1074 <= e <= 971`, signed zeros, infinities and NaN; every operation is the exact one rounded to a nearest value (`R` is an
  arbitrary tie rule, overflow above the midpoint beyond the largest value), and a dot product or sum adds its terms in the order of an
  arbitrary binary tree chosen per length (numpy's pairwise summation and BLAS kernels are such trees; fused multiply-add is not covered).

## 5. What is modelled and what is not

**Modelled completely** (all branches, including those that raise): `constants.py` (option keys, defaults, `validate_options`, flags),
`hessian_approximation.py` (all schemes: BFGS, DFP, Broyden, SR1, BG, BB, HybridFixed, HybridFraction, FX, SSM, TSSM, GNSBFGS and the base class),
`subproblem.py`, `steps.py`, `stepback.py`, `trust_region.py`, `minimize.py` (`FunEvaluator`, `Funout.checkdims`, `Optimizer.__init__`, `_reset`, `minimize`,
`track_minimum`, `update`, `update_tr_radius`, `check_convergence`, `check_continue`, `make_non_degenerate`, `get_affine_scaling`, `check_finite`,
`check_in_bounds`, `track_history`, `get_option`), `logging.py` (`create_logger`, sequentially and under interleaving).

**Abstracted** (parameters or left out):

* the progress log (`log_step`, `log_step_initial`, `log_header`, the messages of `check_convergence` and `check_continue`) is modelled line by line in
  `Model/Log.lean`, beside the state functions, because it does not influence them; numbers are not formatted, debug messages are left out, and that
  a handler raises is not modelled;
* the HDF5 file is a list of named groups; creating an existing group raises `ValueError`; partial writes and file system errors are not modelled;
* `RefinedStep.calculate` calls `scipy.optimize.minimize(trust-constr)`: one oracle call that returns the coefficient vector `res.x` or raises;
* `scipy.linalg.eig` returns complex arrays; `subproblem.py` takes real parts and checks imaginary parts nowhere, the model has real arrays;
* array dtypes, memory layout, broadcasting of wrongly shaped arrays beyond `checkdims`: an objective whose *later* answers change shape is an
  error outcome in the model (`typed` fails), while numpy could broadcast (for example a length-1 gradient).  The first answer is
  treated exactly as `checkdims` does;
* object identity is modelled where it matters: `x` and `x_min` share the array after `track_minimum`, so `make_non_degenerate` (in place)
  moves both (this is what breaks C06 at the margin); arrays that the objective returns again, and writes of the objective to its argument, are in
  `Model/Memory.lean` (C76). There a call that raises writes nothing, an array is written only by the calls that return or receive it, and arrays of
  different roles (gradient, residuals, sensitivities) are distinct;
* integer overflow does not exist in Python; iteration counters are unbounded naturals; `maxiter` is an integer after validation.

**Disagreements found between documentation (or plain expectation) and code** – each is a theorem, named `_counterexample`, `_consequence` or
described in the claim's note in `MANIFEST.json`:

* C12: `exitflag` is `GTOL` when the scaled gradient test passes at a *trial* point; see the note.
* C06: `x_min` shares storage with `x`; the degeneracy nudge moves the reported minimum by up to `100 * eps` after its evaluation.
* C18: `_reset` does not reset `exitflag` and `tr_ratio`, and `_init_mat` does not reset the switch of the hybrid schemes: a second `minimize` on
  the same object can behave differently.
* C26: 2D subspace with truncation: the candidate can leave the trust region, because truncated basis vectors are renormalised one by one and are
  no longer orthogonal.
* C34: the SR1 update with zero denominator makes the matrix NaN. C35, C40: `BB.update` never changes the matrix.
* C45: `subspace_solver`/`stepback_strategy` written as *string keys* skip the enum check: any string value is accepted, and then raises KeyError
  in `trust_region` or silently disables the step-back search.
* C48: `create_logger` is not atomic: two threads can attach two handlers, every message is then printed twice.
* C52: proposals with NaN entries: one variable and zero model Hessian in 2D; zero scaled gradient with Steihaug CG; a reflected step that is
  tangent to the sphere with negative curvature along it (`C20_nan_iff` says exactly when the 1-D subproblem is NaN).
* C76: `self.grad` is the array returned by the objective, not a copy: an objective that fills the same array in every call makes `minimize` return the
  gradient of a rejected trial point, and makes every BFGS/DFP update see a zero gradient difference.
* C77: for a starting point of integers `self.x` is an integer array; next to a bound `make_non_degenerate` moves it by a whole unit (toward zero), which can
  violate the bounds, or leaves it on the bound.
* C63: if the Hessian at a point is singular, positive semidefinite and non-zero, and the gradient lies in its kernel, the 2D solver proposes the zero step; the
  radius collapses and the run stops with `DELTA_TOO_SMALL` where it started (`C63_counterexample`: `x0**2/2 + sin(x1)` from the origin). The Steihaug
  solver does not have this defect (C62).
* C59: in double precision the objective can be called outside the bounds; C60: `lb = ub = x0` with e.g. the value 9 + 2^-49 is refused; C61: the
  nudge off a bound of large magnitude is lost in rounding.
* smaller ones: explicit `history_file=None` is a TypeError although `None` is the default; `maxiter=inf` raises OverflowError rather than
  TypeError; `resfun=True` without a Hessian approximation is accepted by the constructor but no objective can satisfy it (C43); a gradient
  returned as list or `None` raises AttributeError, not the ValueError of the shape check (C42).

## 6. How statements are checked

Every theorem cited in `MANIFEST.json` is stated with the vocabulary of `Verif/Spec/*.lean` (boxes, quadratic models, secant equations, loop heads and passes of a
run, histories) and is followed by an `example` that meets its hypotheses.  `seeded/LOG.jsonl` records the wrong programs tried: each edits one
model definition as a realistic bug would; the log says which theorems stopped being provable and which were tightened because they survived.
