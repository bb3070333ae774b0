import Verif.Lemmas.Pass
import Verif.Lemmas.Nudge
import Verif.Lemmas.Forward

/-!
# A concrete run, used as witness

One variable without bounds, default options.  The objective returns value 1/2, gradient 1, Hessian 1 at `x = 1` and
`F0`, `G0`, 1 anywhere else; `x0 = 1`.  The proposal computed by the real `trust_region` is `s = -1`, so the trial point is 0.
With `F0 = G0 = 0` the objective agrees with `x^2/2` at the points visited.
-/

namespace Fides
open Num Spec

noncomputable section

/-- vector with one entry -/
def v1 (r : ℝ) : Vec Num 1 := ofV fun _ => r

/-- oracles that return zeros -/
def zeroOracles : Oracles Num where
  sub := { eig := fun _ => .ok (vzero, mzero), newton := fun _ x _ => .ok x, brentq := fun _ a _ _ => .ok a }
  lstsq _ _ := .ok vzero
  npEig _ := .ok (vzero, vzero, mzero)
  refine _ _ := .ok []

open Classical in
def demoEnv (fa : ℝ) (F0 G0 : Num) : Env Num 1 where
  lb _ := ninf
  ub _ := pinf
  opts := { resolveOpts [] with fatol := fin fa }
  nargout := 3
  resfun := false
  obj _ x := if x = v1 1 then .tuple [.scalar (fin (1 / 2)), .arr [1] [fin 1], .arr [1, 1] [fin 1]]
    else .tuple [.scalar F0, .arr [1] [G0], .arr [1, 1] [fin 1]]
  clock _ := fin 0
  tr _ I := trustRegion zeroOracles 10 .two .reflect I
  evs _ := .ok (fin 0, fin 0)
  cond _ := .ok (fin 1)

/-- the input of the first call of `trust_region` -/
def demoIn : TRIn Num 1 where
  x := v1 1
  g := v1 1
  hess := fun _ _ => fin 1
  scaling := v1 1
  delta := fin 1
  dv := v1 0
  theta := fin (19 / 20)
  lb := fun _ => ninf
  ub := fun _ => pinf

theorem rdot_one (a b : Fin 1 → ℝ) : rdot a b = a 0 * b 0 := by simp [rdot]

theorem v1_eq (v : Vec Num 1) (r : ℝ) (h : v 0 = fin r) : v = v1 r := by
  funext i; rw [Fin.fin_one_eq_zero i]; exact h

theorem demo_tr : ∃ step, trustRegion zeroOracles 10 .two .reflect demoIn = .ok step ∧ step.s = v1 (-1) ∧ step.s0 = v1 0 ∧
    step.ss = v1 (-1) ∧ step.ss0 = v1 0 ∧ step.qpval = fin (-1 / 2) ∧ step.alpha = fin 1 := by
  have hsg : demoIn.prob.sg = v1 1 := by
    apply v1_eq; simp [TRIn.prob, demoIn, sdot, v1]
  have hsh : demoIn.prob.shess = ofM fun _ _ => 1 := by
    funext i j; simp [Prob.shess, TRIn.prob, demoIn, v1, Subsingleton.elim i j]
  obtain ⟨pd, hsub⟩ : ∃ pd, subspace2d zeroOracles demoIn.prob = .ok ([v1 (-1)], pd, none) := by
    have hcol : (fun i : Fin 1 => -demoIn.prob.sg i / demoIn.prob.shess i i) = v1 (-1) := by
      apply v1_eq
      simp [hsg, hsh, v1]
    simp only [subspace2d, zeroOracles, if_true, hcol]
    exact ⟨_, rfl⟩
  have hsol : solve1d demoIn.prob.shess demoIn.prob.sg (v1 (-1)) demoIn.prob.delta vzero = fin 1 := by
    rw [hsg, hsh]
    simp [solve1d, v1, TRIn.prob, demoIn, rdot_one, rmv, rnorm]
  have hss : subDot [v1 (-1)] [fin 1] = v1 (-1) := by
    apply v1_eq
    simp only [subDot, v1, List.zipWith_cons_cons, List.zipWith_nil_left, ofV_apply, fin_mul, sum_cons, sum_nil, fin_add]
    norm_num
  have hs : sdot demoIn.prob.scaling (v1 (-1)) = v1 (-1) := by
    apply v1_eq; simp [TRIn.prob, demoIn, sdot, v1]
  have hst : ∃ step, step2d zeroOracles demoIn.prob = .ok step ∧ step.s = v1 (-1) ∧ step.s0 = v1 0 ∧
    step.ss = v1 (-1) ∧ step.ss0 = v1 0 ∧ step.qpval = fin (-1 / 2) ∧ step.alpha = fin 1 := by
    have hmin : vmin (fun i : Fin 1 => if lt (lit 0) (FloatOps.abs (v1 (-1) i)) then
      npMax2 ((demoIn.prob.ub i - demoIn.prob.x i) / v1 (-1) i) ((demoIn.prob.lb i - demoIn.prob.x i) / v1 (-1) i)
      else FloatOps.inf) = pinf := by
      simp [vmin, v1, TRIn.prob, demoIn, pinf_div_fin, ninf_div_fin, npMax2, npMin2]
    have hal : npMin2 (lit 1) (demoIn.prob.theta * (pinf : Num)) = fin 1 := by
      simp [TRIn.prob, demoIn, fin_mul_pinf, infSign_pos, npMin2]
    have hm1 : ∀ i : Fin 1, v1 (-1) i * fin 1 = v1 (-1) i := by intro i; simp [v1]
    have hz : vadd (v1 (-1)) (vzero : Vec Num 1) = v1 (-1) := by
      apply v1_eq; simp [vadd, v1]
    have hv0 : (vzero : Vec Num 1) = v1 0 := by apply v1_eq; simp
    simp only [step2d, hsub, Step.calculate, Step.computeStep, Step.init, hsol, hss, hs, Step.stepBack, hmin, hal, hm1, hz]
    refine ⟨_, rfl, rfl, hv0, rfl, hv0, ?_, rfl⟩
    show quadraticForm _ _ (v1 (-1)) = _
    rw [hsg, hsh]
    simp [quadraticForm, v1, rdot_one]
    norm_num
  obtain ⟨step, h1, h2, h3, h4, h5, h6, h7⟩ := hst
  refine ⟨step, ?_, h2, h3, h4, h5, h6, h7⟩
  simp [trustRegion, candidates, trStep, h1, h7, argminGo]

/-- the evaluation at `x = 1` -/
def demoFirst (k : ℕ) : Funout Num 1 :=
  { x := v1 1, xId := k, fval := fin (1 / 2), grad := v1 1, hess := some fun _ _ => fin 1, res := none }
/-- the evaluation at `x = 0` -/
def demoTrial (F0 G0 : Num) (k : ℕ) : Funout Num 1 :=
  { x := v1 0, xId := k, fval := F0, grad := fun _ => G0, hess := some fun _ _ => fin 1, res := none }

theorem typed_one (f g h : Num) (x : Vec Num 1) (k : ℕ) :
    (RawOut.typed { fval := .scalar f, grad := .arr [1] [g], hess := .arr [1, 1] [h], res := .none, sres := .none } x k) =
      some { x := x, xId := k, fval := f, grad := fun _ => g, hess := some fun _ _ => h, res := none } := by
  simp only [RawOut.typed, PyVal.toVec?, PyVal.toMat?, RawOut.resData, if_true, and_self]
  congr 2
  · funext i; simp
  · congr 1; funext i j; simp

theorem demo_box (fa : ℝ) (F0 G0 : Num) (r : ℝ) : InBox (demoEnv fa F0 G0).lb (demoEnv fa F0 G0).ub (fun _ => r) := fun _ => ⟨rfl, rfl⟩

theorem demo_nudge (fa : ℝ) (F0 G0 : Num) (r : ℝ) : nudge (demoEnv fa F0 G0).lb (demoEnv fa F0 G0).ub (v1 r) = v1 r := by
  obtain ⟨r', h1, _, _, h2, _⟩ := nudge_spec _ _ _ (demo_box fa F0 G0 r)
  rw [show v1 r = ofV (fun _ => r) from rfl, h1]
  congr 1
  funext i
  exact h2 i ⟨rfl, rfl⟩ ⟨rfl, rfl⟩

/-- the optimizer when the first trial starts -/
def demoHead (fa : ℝ) (F0 G0 : Num) (st0 : St Num 1) : St Num 1 :=
  { setupState (startState (demoEnv fa F0 G0) (v1 1) "run" st0)
      (demoFirst (startState (demoEnv fa F0 G0) (v1 1) "run" st0).xId) none with converged := false }

/-- the start of the run -/
theorem demo_start (fa : ℝ) (F0 G0 : Num) (st0 : St Num 1) (hh : st0.happ = none) :
    LoopHead (demoEnv fa F0 G0) (v1 1) "run" .hessStr st0 0 (demoHead fa F0 G0 st0)
      (demoFirst (startState (demoEnv fa F0 G0) (v1 1) "run" st0).xId) := by
  have hx : (startState (demoEnv fa F0 G0) (v1 1) "run" st0).x = v1 1 := demo_nudge fa F0 G0 1
  have hb : inBounds (demoEnv fa F0 G0).lb (demoEnv fa F0 G0).ub (v1 1) = true := inBounds_real _ _ _ (demo_box fa F0 G0 1)
  refine LoopHead.start (startState (demoEnv fa F0 G0) (v1 1) "run" st0) _ _ ?_ ?_
  · rw [hx, checkInBounds, if_pos hb]
  · refine setup_forward _ _ _ { fval := .scalar (fin (1 / 2)), grad := .arr [1] [fin 1], hess := .arr [1, 1] [fin 1], res := .none, sres := .none } _ _ ?_ ?_ ?_ ?_ ?_
    · rw [hx]; simp [demoEnv, funEval]
    · have : (startState (demoEnv fa F0 G0) (v1 1) "run" st0).happ = none := hh
      rw [this]; rfl
    · rfl
    · rw [hx, typed_one]; rfl
    · simp [demoFirst, allFinite, vfinite, mfinite, v1]

theorem demoHead_eq (fa : ℝ) (F0 G0 : Num) (st0 : St Num 1) : ∃ a b c d, demoHead fa F0 G0 st0 =
    { startState (demoEnv fa F0 G0) (v1 1) "run" st0 with
      fval := fin (1 / 2), grad := v1 1, happ := none, hess := fun _ _ => fin 1, xMin := a, xMinId := b, fvalMin := c, gradMin := d,
      converged := false, evals := { arg := v1 1, out := .ok (demoFirst (startState (demoEnv fa F0 G0) (v1 1) "run" st0).xId) } :: st0.evals } := by
  obtain ⟨a, b, c, d, h⟩ := setupState_frame (startState (demoEnv fa F0 G0) (v1 1) "run" st0)
    (demoFirst (startState (demoEnv fa F0 G0) (v1 1) "run" st0).xId) none
  refine ⟨a, b, c, d, ?_⟩
  unfold demoHead
  rw [h]
  have hx : (startState (demoEnv fa F0 G0) (v1 1) "run" st0).x = v1 1 := demo_nudge fa F0 G0 1
  simp only [logStart, hx]
  rfl

theorem demo_opts : (resolveOpts [] : Opts Num) =
    { maxiter := 1000, maxtime := pinf, fatol := fin (1 / 100000000), frtol := fin (1 / 100000000), xtol := fin 0,
      gatol := fin (1 / 1000000), grtol := fin 0, subspaceDim := .two, stepbackStrat := .reflect,
      thetaMax := fin (19 / 20), deltaInit := fin 1, mu := fin (1 / 4), eta := fin (3 / 4), gamma1 := fin (1 / 4),
      gamma2 := fin 2, history := false } := by
  simp [resolveOpts, getOption, defaultOption, RawVal.toF, RawVal.toInt, RawVal.toSubspace, RawVal.toStepback, RawVal.truthy]

theorem demo_continue (fa : ℝ) (F0 G0 : Num) (st0 : St Num 1) :
    checkContinue (demoEnv fa F0 G0) (demoHead fa F0 G0 st0) =
      (true, { demoHead fa F0 G0 st0 with ticks := (demoHead fa F0 G0 st0).ticks + 1 }) := by
  obtain ⟨a, b, c, d, h⟩ := demoHead_eq fa F0 G0 st0
  have h1 : (demoHead fa F0 G0 st0).converged = false := by rw [h]
  have h2 : (demoHead fa F0 G0 st0).iteration = 0 := by rw [h]; rfl
  have h3 : (demoHead fa F0 G0 st0).delta = fin 1 := by
    rw [h]; show (resolveOpts [] : Opts Num).deltaInit = _; rw [demo_opts]
  have h4 : (demoHead fa F0 G0 st0).starttime = fin 0 := by rw [h]; rfl
  have hm : (demoEnv fa F0 G0).opts.maxtime = pinf := by show (resolveOpts [] : Opts Num).maxtime = _; rw [demo_opts]
  have hi : (demoEnv fa F0 G0).opts.maxiter = 1000 := by show (resolveOpts [] : Opts Num).maxiter = _; rw [demo_opts]
  have hck : ∀ k, (demoEnv fa F0 G0).clock k = fin 0 := fun _ => rfl
  unfold checkContinue
  simp only [h1, h2, h3, h4, hm, hi, hck]
  norm_num [spacing1]

theorem demo_proposal (fa : ℝ) (F0 G0 : Num) (st0 : St Num 1) :
    trInput (demoEnv fa F0 G0) (preIter { demoHead fa F0 G0 st0 with ticks := (demoHead fa F0 G0 st0).ticks + 1 }) = demoIn := by
  obtain ⟨a, b, c, d, h⟩ := demoHead_eq fa F0 G0 st0
  have hx : (demoHead fa F0 G0 st0).x = v1 1 := by rw [h]; exact demo_nudge fa F0 G0 1
  have hg : (demoHead fa F0 G0 st0).grad = v1 1 := by rw [h]
  have hhs : (demoHead fa F0 G0 st0).hess = fun _ _ => fin 1 := by rw [h]
  have h3 : (demoHead fa F0 G0 st0).delta = fin 1 := by
    rw [h]; show (resolveOpts [] : Opts Num).deltaInit = _; rw [demo_opts]
  have ht : (demoEnv fa F0 G0).opts.thetaMax = fin (19 / 20) := by show (resolveOpts [] : Opts Num).thetaMax = _; rw [demo_opts]
  have hv : affineV (demoEnv fa F0 G0).lb (demoEnv fa F0 G0).ub (v1 1) (v1 1) = v1 1 := by
    apply v1_eq; simp [affineV, demoEnv, v1, fsign]; norm_num
  have hdv : affineDv (demoEnv fa F0 G0).lb (demoEnv fa F0 G0).ub (v1 1) = v1 0 := by
    apply v1_eq; simp [affineDv, demoEnv, v1]; norm_num
  unfold trInput demoIn
  simp only [preIter, hx, hg, hhs, h3, ht, hv, hdv]
  congr 1
  · apply v1_eq; simp [v1]
  · simp [thetaOf, normInf, v1, npMax2, pyMax]
    norm_num

/-- the proposal of the demo run -/
theorem demo_step : ∃ step : Step Num 1, ∀ (fa : ℝ) (F0 G0 : Num) (st0 : St Num 1),
    (demoEnv fa F0 G0).tr (demoHead fa F0 G0 st0).proposals
      (trInput (demoEnv fa F0 G0) (preIter { demoHead fa F0 G0 st0 with ticks := (demoHead fa F0 G0 st0).ticks + 1 })) = .ok step ∧
    step.s = v1 (-1) ∧ step.s0 = v1 0 ∧ step.ss = v1 (-1) ∧ step.ss0 = v1 0 ∧ step.qpval = fin (-1 / 2) := by
  obtain ⟨step, h1, h2, h3, h4, h5, h6, h7⟩ := demo_tr
  refine ⟨step, fun fa F0 G0 st0 => ⟨?_, h2, h3, h4, h5, h6⟩⟩
  rw [demo_proposal]
  exact h1

/-- the state before the first pass -/
def demoPre (fa : ℝ) (F0 G0 : Num) (st0 : St Num 1) : St Num 1 := { demoHead fa F0 G0 st0 with ticks := (demoHead fa F0 G0 st0).ticks + 1 }

theorem demo_trialPoint (fa : ℝ) (F0 G0 : Num) (st0 : St Num 1) (step : Step Num 1) (h1 : step.s = v1 (-1)) (h2 : step.s0 = v1 0) :
    trialPoint (demoPre fa F0 G0 st0) step = v1 0 := by
  obtain ⟨a, b, c, d, h⟩ := demoHead_eq fa F0 G0 st0
  have hx : (demoHead fa F0 G0 st0).x = v1 1 := by rw [h]; exact demo_nudge fa F0 G0 1
  show vadd (vadd (demoHead fa F0 G0 st0).x _) _ = _
  rw [hx, h1, h2]
  apply v1_eq
  simp [vadd, v1]

theorem v1_ne : (v1 0 : Vec Num 1) ≠ v1 1 := by
  intro h
  have := congrFun h 0
  simp [v1] at this

theorem demo_out (fa : ℝ) (F0 G0 : Num) (st0 : St Num 1) (step : Step Num 1) (h1 : step.s = v1 (-1)) (h2 : step.s0 = v1 0) :
    trialOut (demoEnv fa F0 G0) (demoPre fa F0 G0 st0) step = .ok (demoTrial F0 G0 (demoHead fa F0 G0 st0).nextId) := by
  have ht := demo_trialPoint fa F0 G0 st0 step h1 h2
  refine trialOut_forward _ _ _ { fval := .scalar F0, grad := .arr [1] [G0], hess := .arr [1, 1] [fin 1], res := .none, sres := .none } _ ?_ ?_
  · rw [ht]; simp [demoEnv, funEval, v1_ne]
  · rw [ht, typed_one]; rfl

theorem demo_finite (fa : ℝ) (F0 G0 : Num) (st0 : St Num 1) :
    allFinite (demoPre fa F0 G0 st0).fval (demoPre fa F0 G0 st0).grad (some (demoPre fa F0 G0 st0).hess) = true := by
  obtain ⟨a, b, c, d, h⟩ := demoHead_eq fa F0 G0 st0
  unfold demoPre
  rw [h]
  simp [allFinite, vfinite, mfinite, v1]

theorem demo_frame (fa : ℝ) (F0 G0 : Num) (st0 : St Num 1) :
    (demoPre fa F0 G0 st0).fval = fin (1 / 2) ∧ (demoPre fa F0 G0 st0).delta = fin 1 ∧ (demoPre fa F0 G0 st0).iteration = 0 ∧
      (demoPre fa F0 G0 st0).x = v1 1 ∧ (demoPre fa F0 G0 st0).grad = v1 1 ∧ (demoPre fa F0 G0 st0).happ = none ∧
      (demoPre fa F0 G0 st0).nextId = (demoHead fa F0 G0 st0).nextId := by
  obtain ⟨a, b, c, d, h⟩ := demoHead_eq fa F0 G0 st0
  unfold demoPre
  refine ⟨by rw [h], ?_, by rw [h]; rfl, by rw [h]; exact demo_nudge fa F0 G0 1, by rw [h], by rw [h], rfl⟩
  rw [h]; show (resolveOpts [] : Opts Num).deltaInit = _; rw [demo_opts]

theorem demo_radius (fa : ℝ) (f g : ℝ) (st0 : St Num 1) (step : Step Num 1) (k : ℕ) (h4 : step.ss = v1 (-1)) (h5 : step.ss0 = v1 0)
    (h6 : step.qpval = fin (-1 / 2)) :
    (radiusStep (demoEnv fa (fin f) (fin g)) (demoPre fa (fin f) (fin g) st0) step (demoTrial (fin f) (fin g) k)).1 = decide (0 < 1 - 2 * f) ∧
    (radiusStep (demoEnv fa (fin f) (fin g)) (demoPre fa (fin f) (fin g) st0) step (demoTrial (fin f) (fin g) k)).2.trRatio = fin (1 - 2 * f) ∧
    (radiusStep (demoEnv fa (fin f) (fin g)) (demoPre fa (fin f) (fin g) st0) step (demoTrial (fin f) (fin g) k)).2.delta =
      if 3 / 4 ≤ 1 - 2 * f then fin 2 else if 1 - 2 * f ≤ 1 / 4 then fin (1 / 4) else fin 1 := by
  obtain ⟨hf, hd, hi, hx, hg, hh, _⟩ := demo_frame fa (fin f) (fin g) st0
  have hsx : vadd step.ss step.ss0 = v1 (-1) := by rw [h4, h5]; apply v1_eq; simp [vadd, v1]
  have hdv : (trInput (demoEnv fa (fin f) (fin g)) (preIter (demoPre fa (fin f) (fin g) st0))).dv = v1 0 := by
    have := demo_proposal fa (fin f) (fin g) st0
    unfold demoPre
    rw [this]; rfl
  have hnm : Fides.norm (v1 (-1)) = fin 1 := by simp [v1, rnorm, rdot_one]
  have hdot : dot (v1 (-1)) (fun i => v1 0 i * FloatOps.abs ((demoTrial (fin f) (fin g) k).grad i) * v1 (-1) i) = fin 0 := by
    simp [dot, v1, demoTrial, sum_cons, sum_nil]
  have hst : (afterEval (demoPre fa (fin f) (fin g) st0) step (.ok (demoTrial (fin f) (fin g) k))).fval = fin (1 / 2) := hf
  have hde : (afterEval (demoPre fa (fin f) (fin g) st0) step (.ok (demoTrial (fin f) (fin g) k))).delta = fin 1 := hd
  have hdi : (afterEval (demoPre fa (fin f) (fin g) st0) step (.ok (demoTrial (fin f) (fin g) k))).deltaIter = fin 1 := hd
  have heta : (demoEnv fa (fin f) (fin g)).opts.eta = fin (3 / 4) := by show (resolveOpts [] : Opts Num).eta = _; rw [demo_opts]
  have hmu : (demoEnv fa (fin f) (fin g)).opts.mu = fin (1 / 4) := by show (resolveOpts [] : Opts Num).mu = _; rw [demo_opts]
  have hg1 : (demoEnv fa (fin f) (fin g)).opts.gamma1 = fin (1 / 4) := by show (resolveOpts [] : Opts Num).gamma1 = _; rw [demo_opts]
  have hg2 : (demoEnv fa (fin f) (fin g)).opts.gamma2 = fin 2 := by show (resolveOpts [] : Opts Num).gamma2 = _; rw [demo_opts]
  unfold radiusStep updateTrRadius
  have hfv : (demoTrial (fin f) (fin g) k).fval = fin f := rfl
  simp only [hsx, hdv, hnm, hdot, hst, hde, hdi, h6, heta, hmu, hg1, hg2, hfv]
  have hr : (if le (-(fin (-1 / 2)) : Num) (lit 0) = true then (lit 0 : Num) else (fin (1 / 2) - fin f - lit (1 / 2) * fin 0) / -(fin (-1 / 2))) = fin (1 - 2 * f) := by
    norm_num
    ring
  simp only [hr]
  norm_num [nanMin2]
  by_cases hA : (3 / 4 : ℝ) ≤ 1 - 2 * f
  · simp [hA]
  · by_cases hB : (1 - 2 * f : ℝ) ≤ 1 / 4
    · have hB' : (1 : ℝ) ≤ 4⁻¹ + 2 * f := by norm_num at hB ⊢; linarith
      simp [hA, hB']
    · have hB' : ¬ (1 : ℝ) ≤ 4⁻¹ + 2 * f := by norm_num at hB ⊢; linarith
      simp only [hA, decide_false, Bool.false_and, Bool.false_eq_true, if_false]
      simp [hB']
      split <;> exact ⟨rfl, rfl⟩

/-- what the convergence test must do in the first pass for `demo_run_gen` -/
def DemoConv (fa f g : ℝ) (ef : ExitFlag) : Prop := ∀ (st : St Num 1) (step : Step Num 1) (k : ℕ), st.iteration = 1 →
  st.fval = fin (1 / 2) → st.trRatio = fin (1 - 2 * f) →
  checkConvergence (demoEnv fa (fin f) (fin g)) step (demoTrial (fin f) (fin g) k) st = { st with exitflag := ef, converged := true }

theorem demo_fatol (fa : ℝ) (F0 G0 : Num) : (demoEnv fa F0 G0).opts.fatol = fin fa ∧
    (demoEnv fa F0 G0).opts.frtol = fin (1 / 100000000) ∧ (demoEnv fa F0 G0).opts.gatol = fin (1 / 1000000) ∧
    (demoEnv fa F0 G0).opts.mu = fin (1 / 4) := by
  refine ⟨rfl, ?_, ?_, ?_⟩
  · show (resolveOpts [] : Opts Num).frtol = _; rw [demo_opts]
  · show (resolveOpts [] : Opts Num).gatol = _; rw [demo_opts]
  · show (resolveOpts [] : Opts Num).mu = _; rw [demo_opts]

theorem demo_gtol (fa f g : ℝ) (hg : |g| ≤ 1 / 1000000) (hff : fa + 1 / 100000000 ≤ |f - 1 / 2|) : DemoConv fa f g .gtol := by
  intro st step k hi hfv _
  have hn : Fides.norm (demoTrial (fin f) (fin g) k).grad = fin |g| := by
    have : (demoTrial (fin f) (fin g) k).grad = ofV (fun _ => g) := rfl
    rw [this, norm_ofV]
    simp [rnorm, rdot_one, Real.sqrt_mul_self_eq_abs]
  obtain ⟨h1, h2, h3, _⟩ := demo_fatol fa (fin f) (fin g)
  have hfo : (demoTrial (fin f) (fin g) k).fval = fin f := rfl
  unfold checkConvergence
  have hlt : lt (FloatOps.abs (fin f - fin (1 / 2)) : Num) (fin fa + fin (1 / 100000000) * FloatOps.abs (fin (1 / 2))) = false := by
    simp only [fin_sub, fin_abs, fin_mul, fin_add, fin_lt, decide_eq_false_iff_not, not_lt]
    refine le_trans ?_ hff
    norm_num [abs_of_pos]
  simp only [hn, h1, h2, h3, hfo, hfv, hlt, hi, Bool.and_false, Bool.false_eq_true, if_false, lt_irrefl, decide_false, Bool.false_and,
    fin_le, hg, decide_true, if_true]

theorem demo_ftol (fa f g : ℝ) (hf : f < 3 / 8) (hff : |f - 1 / 2| < fa) : DemoConv fa f g .ftol := by
  intro st step k hi hfv hr
  obtain ⟨h1, h2, h3, h4⟩ := demo_fatol fa (fin f) (fin g)
  have hfo : (demoTrial (fin f) (fin g) k).fval = fin f := rfl
  unfold checkConvergence
  have hlt : lt (FloatOps.abs (fin f - fin (1 / 2)) : Num) (fin fa + fin (1 / 100000000) * FloatOps.abs (fin (1 / 2))) = true := by
    simp only [fin_sub, fin_abs, fin_mul, fin_add, fin_lt, decide_eq_true_eq]
    refine lt_of_lt_of_le hff ?_
    norm_num [abs_of_pos]
  have hmu : lt (fin (1 / 4)) (fin (1 - 2 * f)) = true := by simp only [fin_lt, decide_eq_true_eq]; linarith
  simp only [h1, h2, h4, hfo, hfv, hlt, hr, hmu, Bool.and_true, if_true]

/-- the state returned by the demo run -/
theorem demo_run_gen (fa : ℝ) (f g : ℝ) (ef : ExitFlag) (hconv0 : DemoConv fa f g ef) (st0 : St Num 1) (hh : st0.happ = none) (fuel : ℕ) :
    ∃ st', minimize (demoEnv fa (fin f) (fin g)) (fuel + 1) (v1 1) "run" .hessStr st0 = .ok st' ∧ st'.exitflag = ef ∧
      st'.converged = true ∧ st'.iteration = 1 ∧
      (0 < 1 - 2 * f → st'.x = v1 0 ∧ st'.fval = fin f ∧ st'.grad = v1 g) ∧
      (¬ 0 < 1 - 2 * f → st'.x = v1 1 ∧ st'.fval = fin (1 / 2) ∧ st'.grad = v1 1) ∧
      ∃ step k next cur', Pass (demoEnv fa (fin f) (fin g)) (demoHead fa (fin f) (fin g) st0)
        (demoFirst (startState (demoEnv fa (fin f) (fin g)) (v1 1) "run" st0).xId) step (demoTrial (fin f) (fin g) k) next cur' ∧
        st' = next := by
  obtain ⟨step, hstep⟩ := demo_step
  obtain ⟨htr, h2, h3, h4, h5, h6⟩ := hstep fa (fin f) (fin g) st0
  obtain ⟨hf, hd, hi, hx, hgr, hhap, hid⟩ := demo_frame fa (fin f) (fin g) st0
  have hout := demo_out fa (fin f) (fin g) st0 step h2 h3
  obtain ⟨hr1, hr2, hr3⟩ := demo_radius fa f g st0 step (demoHead fa (fin f) (fin g) st0).nextId h4 h5 h6
  have hfin := demo_finite fa (fin f) (fin g) st0
  have hfn : allFinite (demoTrial (fin f) (fin g) (demoHead fa (fin f) (fin g) st0).nextId).fval
      (demoTrial (fin f) (fin g) (demoHead fa (fin f) (fin g) st0).nextId).grad
      (demoTrial (fin f) (fin g) (demoHead fa (fin f) (fin g) st0).nextId).hess = true := by
    simp [demoTrial, allFinite, vfinite, mfinite]
  have hhist : (demoEnv fa (fin f) (fin g)).opts.history = false := by show (resolveOpts [] : Opts Num).history = _; rw [demo_opts]
  have hstart := demo_start fa (fin f) (fin g) st0 hh
  have hcont := demo_continue fa (fin f) (fin g) st0
  obtain ⟨r, d, i, m, hfr⟩ := updateTrRadius_frame (demoEnv fa (fin f) (fin g)) (demoTrial (fin f) (fin g) (demoHead fa (fin f) (fin g) st0).nextId) step
    (trInput (demoEnv fa (fin f) (fin g)) (preIter (demoPre fa (fin f) (fin g) st0))).dv
    (afterEval (demoPre fa (fin f) (fin g) st0) step (.ok (demoTrial (fin f) (fin g) (demoHead fa (fin f) (fin g) st0).nextId)))
  have hrs : (radiusStep (demoEnv fa (fin f) (fin g)) (demoPre fa (fin f) (fin g) st0) step
      (demoTrial (fin f) (fin g) (demoHead fa (fin f) (fin g) st0).nextId)).2 = _ := hfr
  have hconv := hconv0
    (radiusStep (demoEnv fa (fin f) (fin g)) (demoPre fa (fin f) (fin g) st0) step
      (demoTrial (fin f) (fin g) (demoHead fa (fin f) (fin g) st0).nextId)).2 step (demoHead fa (fin f) (fin g) st0).nextId
    (by rw [hrs]; show (demoPre fa (fin f) (fin g) st0).iteration + 1 = 1; rw [hi]) (by rw [hrs]; exact hf) hr2
  have hpc : ∃ a b c e, postCheck (demoEnv fa (fin f) (fin g)) (demoPre fa (fin f) (fin g) st0) step
      (demoTrial (fin f) (fin g) (demoHead fa (fin f) (fin g) st0).nextId) =
      { afterEval (demoPre fa (fin f) (fin g) st0) step (.ok (demoTrial (fin f) (fin g) (demoHead fa (fin f) (fin g) st0).nextId)) with
        trRatio := r, delta := d, iterSinceTr := i, nIntermediate := m, exitflag := ef, converged := true,
        xMin := a, xMinId := b, fvalMin := c, gradMin := e } := by
    unfold postCheck
    rw [hconv, hrs]
    obtain ⟨a, b, c, e, h⟩ := trackMinimum_frame (demoTrial (fin f) (fin g) (demoHead fa (fin f) (fin g) st0).nextId)
      { afterEval (demoPre fa (fin f) (fin g) st0) step (.ok (demoTrial (fin f) (fin g) (demoHead fa (fin f) (fin g) st0).nextId)) with
        trRatio := r, delta := d, iterSinceTr := i, nIntermediate := m, exitflag := ef, converged := true }
    exact ⟨a, b, c, e, h⟩
  obtain ⟨a, b, c, e, hpc⟩ := hpc
  -- the pass
  obtain ⟨next, cur', hit, hxs, hn⟩ : ∃ next cur', iterate (demoEnv fa (fin f) (fin g)) (demoPre fa (fin f) (fin g) st0)
      (demoFirst (startState (demoEnv fa (fin f) (fin g)) (v1 1) "run" st0).xId) = .ok (next, cur') ∧
      ((0 < 1 - 2 * f → next.x = v1 0 ∧ next.fval = fin f ∧ next.grad = v1 g) ∧
      (¬ 0 < 1 - 2 * f → next.x = v1 1 ∧ next.fval = fin (1 / 2) ∧ next.grad = v1 1)) ∧
      next.exitflag = ef ∧ next.converged = true ∧ next.iteration = 1 ∧
      next.evals = { arg := trialPoint (demoPre fa (fin f) (fin g) st0) step, out := .ok (demoTrial (fin f) (fin g) (demoHead fa (fin f) (fin g) st0).nextId) } ::
        (demoHead fa (fin f) (fin g) st0).evals := by
    by_cases hacc : 0 < 1 - 2 * f
    · have hu := update_none (demoEnv fa (fin f) (fin g)) step (demoTrial (fin f) (fin g) (demoHead fa (fin f) (fin g) st0).nextId)
        (demoFirst (startState (demoEnv fa (fin f) (fin g)) (v1 1) "run" st0).xId)
        (postCheck (demoEnv fa (fin f) (fin g)) (demoPre fa (fin f) (fin g) st0) step
          (demoTrial (fin f) (fin g) (demoHead fa (fin f) (fin g) st0).nextId)) (fun _ _ => fin 1)
        (by rw [hpc]; exact hhap) rfl (inBounds_real _ _ _ (demo_box fa (fin f) (fin g) 0))
      refine ⟨_, _, iterate_accept _ _ _ _ step _ hhist hfin htr hout hfn (by rw [hr1]; simpa using hacc) hu, ?_, ?_⟩
      · refine ⟨fun _ => ⟨demo_nudge fa (fin f) (fin g) 0, rfl, rfl⟩, fun h => absurd hacc h⟩
      · simp only [hpc, makeNonDegenerate]
        exact ⟨trivial, trivial, congrArg (· + 1) hi, rfl⟩
    · refine ⟨_, _, iterate_reject _ _ _ step _ hhist hfin htr hout (fun _ => hfn) (by rw [hr1]; simpa using hacc), ?_, ?_⟩
      · refine ⟨fun h => absurd h hacc, fun _ => ?_⟩
        rw [hpc]
        exact ⟨hx, hf, hgr⟩
      · rw [hpc]
        exact ⟨rfl, rfl, congrArg (· + 1) hi, rfl⟩
  have hl : loop (demoEnv fa (fin f) (fin g)) (fuel + 1) (demoHead fa (fin f) (fin g) st0)
      (demoFirst (startState (demoEnv fa (fin f) (fin g)) (v1 1) "run" st0).xId) = .ok next := by
    rw [loop_step _ _ _ _ _ _ _ hcont hit]
    refine loop_stop _ _ _ _ _ ?_
    simp [checkContinue, hn.2.1]
  refine ⟨next, ?_, hn.1, hn.2.1, hn.2.2.1, hxs.1, hxs.2, step, _, next, cur', ⟨hcont, hit, htr, hn.2.2.2, ?_⟩, rfl⟩
  · rw [minimize_of_head _ _ _ _ _ _ _ _ _ (by decide) hstart hl]
    simp [writeHistory, hhist]
  · have := demo_trialPoint fa (fin f) (fin g) st0 step h2 h3
    show v1 0 = _
    rw [← this]; rfl

/-- the default options -/
theorem demo_default (F0 G0 : Num) : (demoEnv (1 / 100000000) F0 G0).opts = resolveOpts [] := by
  show ({ (resolveOpts [] : Opts Num) with fatol := fin (1 / 100000000) } : Opts Num) = _
  rw [demo_opts]

/-- the optimizer object before the demo runs -/
def demoSt0 : St Num 1 := St.new (resolveOpts []) none

/-- with default options and zero trial value and gradient the run accepts the step to 0 and converges -/
theorem demo_ok : ∃ st', minimize (demoEnv (1 / 100000000) (fin 0) (fin 0)) 1 (v1 1) "run" .hessStr demoSt0 = .ok st' ∧
    st'.exitflag = .gtol ∧ st'.converged = true ∧ st'.iteration = 1 ∧ st'.x = v1 0 ∧ st'.fval = fin 0 := by
  obtain ⟨st', h, h1, h2, h3, h4, _⟩ := demo_run_gen (1 / 100000000) 0 0 .gtol
    (demo_gtol _ _ _ (by norm_num) (by norm_num [abs_of_neg])) demoSt0 rfl 0
  exact ⟨st', h, h1, h2, h3, (h4 (by norm_num)).1, (h4 (by norm_num)).2.1⟩

/-- with fatol = 1 the same run ends with FTOL -/
theorem demo_ok_ftol : ∃ st', minimize (demoEnv 1 (fin 0) (fin 0)) 1 (v1 1) "run" .hessStr demoSt0 = .ok st' ∧
    st'.exitflag = .ftol ∧ st'.x = v1 0 ∧ le (lit 0) (demoEnv 1 (fin 0) (fin 0)).opts.mu = true := by
  obtain ⟨st', h, h1, h2, h3, h4, _⟩ := demo_run_gen 1 0 0 .ftol
    (demo_ftol _ _ _ (by norm_num) (by norm_num [abs_of_neg])) demoSt0 rfl 0
  refine ⟨st', h, h1, (h4 (by norm_num)).1, ?_⟩
  rw [(demo_fatol 1 (fin 0) (fin 0)).2.2.2]
  norm_num

/-- loop heads exist -/
theorem demo_head (fa : ℝ) (F0 G0 : Num) : ∃ st cur, LoopHead (demoEnv fa F0 G0) (v1 1) "run" .hessStr demoSt0 0 st cur :=
  ⟨_, _, demo_start fa F0 G0 demoSt0 rfl⟩

/-- complete passes exist: with an accepted step (`f = 0`) and with a rejected one (`f = 5`) -/
theorem demo_pass (f : ℝ) (hff : 1 / 1000 ≤ |f - 1 / 2|) : ∃ prev cur step new next cur',
    Pass (demoEnv (1 / 100000000) (fin f) (fin 0)) prev cur step new next cur' ∧
    LoopHead (demoEnv (1 / 100000000) (fin f) (fin 0)) (v1 1) "run" .hessStr demoSt0 0 prev cur ∧
    prev.x = v1 1 ∧ next.x = if 0 < 1 - 2 * f then v1 0 else v1 1 := by
  obtain ⟨st', h, h1, h2, h3, h4, h5, step, k, next, cur', h6, rfl⟩ := demo_run_gen (1 / 100000000) f 0 .gtol
    (demo_gtol _ _ _ (by norm_num) (le_trans (by norm_num) hff)) demoSt0 rfl 0
  refine ⟨_, _, _, _, _, _, h6, demo_start _ _ _ _ rfl, (demo_frame _ (fin f) (fin 0) demoSt0).2.2.2.1, ?_⟩
  split
  · exact (h4 (by assumption)).1
  · exact (h5 (by assumption)).1

/-- a complete pass with a trial value that is NaN -/
theorem demo_pass_nan : ∃ prev cur step new next cur',
    Pass (demoEnv (1 / 100000000) nan (fin 0)) prev cur step new next cur' ∧ isFinite new.fval = false := by
  obtain ⟨step, hstep⟩ := demo_step
  obtain ⟨htr, h2, h3, h4, h5, h6⟩ := hstep (1 / 100000000) nan (fin 0) demoSt0
  have hout := demo_out (1 / 100000000) nan (fin 0) demoSt0 step h2 h3
  have hfin := demo_finite (1 / 100000000) nan (fin 0) demoSt0
  have hcont := demo_continue (1 / 100000000) nan (fin 0) demoSt0
  have hhist : (demoEnv (1 / 100000000) nan (fin 0)).opts.history = false := by
    show (resolveOpts [] : Opts Num).history = _; rw [demo_opts]
  have hnf : isFinite (demoTrial nan (fin 0) (demoHead (1 / 100000000) nan (fin 0) demoSt0).nextId).fval = false := rfl
  have hrej : (radiusStep (demoEnv (1 / 100000000) nan (fin 0)) (demoPre (1 / 100000000) nan (fin 0) demoSt0) step
      (demoTrial nan (fin 0) (demoHead (1 / 100000000) nan (fin 0) demoSt0).nextId)).1 = false := by
    unfold radiusStep updateTrRadius
    simp only [hnf, Bool.not_false, if_true]
  have hit := iterate_reject _ _ (demoFirst (startState (demoEnv (1 / 100000000) nan (fin 0)) (v1 1) "run" demoSt0).xId) step _ hhist hfin htr
    hout (fun h => by rw [hnf] at h; cases h) hrej
  refine ⟨_, _, step, _, _, _, ⟨hcont, hit, htr, ?_, ?_⟩, hnf⟩
  · obtain ⟨r, d, i, m, ef, c, mx, mxi, mf, mg, hpf⟩ := postCheck_frame (demoEnv (1 / 100000000) nan (fin 0))
      (demoPre (1 / 100000000) nan (fin 0) demoSt0) step (demoTrial nan (fin 0) (demoHead (1 / 100000000) nan (fin 0) demoSt0).nextId)
    rw [hpf]; rfl
  · have := demo_trialPoint (1 / 100000000) nan (fin 0) demoSt0 step h2 h3
    show v1 0 = _
    rw [← this]; rfl

end
end Fides
