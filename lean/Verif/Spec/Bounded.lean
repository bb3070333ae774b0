import Verif.Spec.Smooth
import Verif.Spec.Run
import Verif.Spec.Box
import Verif.Spec.Routines

/-!
# Specification vocabulary: smooth objectives on a box, and how far a point is from first-order optimality
-/

namespace Fides.Spec
open Fides Fides.Num

variable {n : ℕ}

/-- distance of coordinate `i` of `x` to the bound it approaches when the objective with gradient `g` is decreased; 1 if there is no such
bound -/
noncomputable def boundDist (lb ub : Vec Num n) (x g : Fin n → ℝ) (i : Fin n) : ℝ :=
  if g i < 0 then (match ub i with | fin u => u - x i | _ => 1) else (match lb i with | fin l => x i - l | _ => 1)

/-- optimality measure of the point `x` with gradient `g`: length of the gradient, each squared entry weighted with the distance to the bound it
points to (0 exactly at first-order optimal points, see `C65_measure`) -/
noncomputable def scaledGrad (lb ub : Vec Num n) (x g : Fin n → ℝ) : ℝ := Real.sqrt (∑ i, boundDist lb ub x g i * g i ^ 2)

/-- every coordinate is free, or it has two finite bounds at most `W` apart -/
def FreeOrWidth (W : ℝ) (lb ub : Vec Num n) : Prop :=
  ∀ i, (lb i = ninf ∧ ub i = pinf) ∨ ∃ l u : ℝ, lb i = fin l ∧ ub i = fin u ∧ u - l ≤ W

/-- every coordinate is free, or it has two finite bounds at least `w` and at most `W` apart -/
def FreeOrBetween (w W : ℝ) (lb ub : Vec Num n) : Prop :=
  ∀ i, (lb i = ninf ∧ ub i = pinf) ∨ ∃ l u : ℝ, lb i = fin l ∧ ub i = fin u ∧ w ≤ u - l ∧ u - l ≤ W

/-- symmetric positive definite real matrix whose quadratic form is bounded by `M` -/
def PDBoundedSym (M : ℝ) (a : Mat Num n n) : Prop :=
  ∃ B : Fin n → Fin n → ℝ, a = ofM B ∧ Sym B ∧ PD B ∧ ∀ v, rdot v (rmv B v) ≤ M * rdot v v

/-- in the box, the gradient entries of the coordinates that have a bound are at most `G` -/
def GradBound (G : ℝ) (lb ub : Vec Num n) (g : (Fin n → ℝ) → Fin n → ℝ) : Prop :=
  ∀ x, InBox lb ub x → ∀ i, lb i ≠ ninf ∨ ub i ≠ pinf → |g x i| ≤ G

/-- whenever a call of the objective at a point `x` of the box returns (with the right shapes), it returns `f x` and `g x` -/
def EvaluatesOn (E : Env Num n) (f : (Fin n → ℝ) → ℝ) (g : (Fin n → ℝ) → Fin n → ℝ) : Prop :=
  ∀ (k : ℕ) (x : Fin n → ℝ) (xId : ℕ) (raw : RawOut Num) (fo : Funout Num n), InBox E.lb E.ub x →
    funEval E.nargout E.resfun (E.obj k (ofV x)) = .ok raw → raw.typed (ofV x) xId = some fo → fo.fval = fin (f x) ∧ fo.grad = ofV (g x)

/-- in the box, `g` is the gradient of `f` (derivatives are taken along the part of each line that lies in the box) and it is Lipschitz
continuous with constant `L` -/
structure SmoothOn (L : ℝ) (lb ub : Vec Num n) (f : (Fin n → ℝ) → ℝ) (g : (Fin n → ℝ) → Fin n → ℝ) : Prop where
  deriv : ∀ x s, InBox lb ub x → HasDerivWithinAt (fun t : ℝ => f (x + t • s)) (rdot (g x) s) {t | InBox lb ub (x + t • s)} 0
  lipschitz : ∀ x y, InBox lb ub x → InBox lb ub y → rnorm (g y - g x) ≤ L * rnorm (y - x)

/-! Constants of the convergence theorem for bounded problems.  `M` bounds the model Hessians, `W` the width of the bounds, `G` the gradient in
bounded coordinates, `tm` is the option `theta_max`, `eta` is the distance by which a point is moved away from the bounds before a step. -/

/-- bound of the second derivatives of the scaled model -/
noncomputable def scaledCurv (W M G : ℝ) : ℝ := W * M + G

/-- every proposal reduces the model by at least `eps / 2 * min D (eps * cutFactor)` for trust radius `D` -/
noncomputable def cutFactor (W M G tm : ℝ) : ℝ := min (1 / scaledCurv W M G) (tm / G)

/-- lower bound for the trust radius as long as the measure is at least `eps` -/
noncomputable def boxFloor (mu g1 D0 L W M G tm eps : ℝ) : ℝ :=
  min D0 (min g1 (1 / 4) * min (eps * cutFactor W M G tm / 3) ((1 - mu) * (eps / 2) / (2 * (W * (L + M / 2) + G / 2))))

/-- lower bound for the predicted reduction as long as the measure is at least `eps` -/
noncomputable def boxPred (mu g1 D0 L W M G tm eps : ℝ) : ℝ :=
  eps / 2 * min (boxFloor mu g1 D0 L W M G tm eps) (eps * cutFactor W M G tm)

/-- bound for the change of the model when the current point of `n` variables is moved by at most `eta` in each coordinate -/
noncomputable def nudgeError (n : ℕ) (L G eta : ℝ) : ℝ := n * (G * eta + L * eta ^ 2)

/-- number of iterations within which a run in the box meets a point with measure below `eps` -/
noncomputable def boxBound (mu g1 g2 D0 L W M G tm gap eps : ℝ) : ℕ :=
  passBound g1 g2 D0 gap (boxFloor mu g1 D0 L W M G tm eps) (mu * boxPred mu g1 D0 L W M G tm eps)

/-- a run on a bounded smooth problem: trust-region options `mu, eta, gamma1, gamma2, delta_init, theta_max` in their ranges,
an objective that computes `f` and `g` in the box, with `g` the gradient of `f`, Lipschitz continuous (`L`) and, in coordinates with a bound, bounded by
`G`, values not below `fmin`; model Hessians that are symmetric and bounded by `M` (from the user or from an approximation, possibly indefinite);
distances to the bounds at most `W` -/
structure BoxRun (E : Env Num n) (f : (Fin n → ℝ) → ℝ) (g : (Fin n → ℝ) → Fin n → ℝ) (mu eta g1 g2 D0 tm L W M G fmin : ℝ) (x0 : Vec Num n)
    (startId : String) (hess0 : Hess0 Num) (st0 : St Num n) : Prop where
  params : TRParams E mu eta g1 g2 D0
  thetaMax : E.opts.thetaMax = fin tm
  evaluates : EvaluatesOn E f g
  smooth : SmoothOn L E.lb E.ub f g
  L_nonneg : 0 ≤ L
  M_pos : 0 < M
  W_pos : 0 < W
  G_pos : 0 < G
  below : ∀ y, InBox E.lb E.ub y → fmin ≤ f y
  gradient : GradBound G E.lb E.ub g
  hessian : ∀ j st cur, LoopHead E x0 startId hess0 st0 j st cur → BoundedSym M st.hess
  width : ∀ j st cur x h, LoopHead E x0 startId hess0 st0 j st cur → st.x = ofV x → st.grad = ofV h → ∀ i, boundDist E.lb E.ub x h i ≤ W

/-- by the time of this state, the objective has been evaluated at a point near which the measure is below `eps` -/
def NearOptimal (E : Env Num n) (g : (Fin n → ℝ) → Fin n → ℝ) (eps : ℝ) (st : St Num n) : Prop :=
  ∃ (z x : Fin n → ℝ) (fo : Funout Num n), { arg := ofV z, out := .ok fo } ∈ st.evals ∧ InBox E.lb E.ub z ∧ InBox E.lb E.ub x ∧
    (∀ i, |x i - z i| ≤ margin) ∧ scaledGrad E.lb E.ub x (g z) < eps

/-- the iteration that starts in state `st` proposes a point with an entry that is not a number (see C52 for when this happens) -/
def NonRealTrial (E : Env Num n) (st : St Num n) : Prop :=
  ∃ step, E.tr st.proposals (trInput E { st with iteration := st.iteration + 1, deltaIter := st.delta, ticks := st.ticks + 1 }) = .ok step ∧
    ∀ y : Fin n → ℝ, vadd (vadd st.x step.s) step.s0 ≠ ofV y

/-- the solver, the external routines and the step-back strategies the claim is about: two-dimensional (default) or full-space solver, exact routines that return
finite numbers, `single_reflect`, `reflect` (default) or `refine` -/
structure NewtonSolver (E : Env Num n) (O : ℕ → Oracles Num) (fuel : ℕ) : Prop where
  uses : ∀ k I, E.tr k I = trustRegion (O k) fuel E.opts.subspaceDim E.opts.stepbackStrat I
  exact : ∀ k, ExactRoutines (O k)
  finite : ∀ k, FiniteOracles (O k)
  solver : E.opts.subspaceDim = .two ∨ E.opts.subspaceDim = .full
  strategy : E.opts.stepbackStrat ≠ .truncate ∧ E.opts.stepbackStrat ≠ .mixed
  refine : E.opts.stepbackStrat = .refine → ∀ k, RefinesInBall (O k)


end Fides.Spec
