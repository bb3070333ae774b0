import Verif.Props.StructuredRun
import Verif.Props.NewtonExamples

/-! Examples for the run forms of C36: one variable, residual `x² + 1`, a step from 1 to 1/2 that is accepted, with each of the structured approximations. -/

namespace Fides
open Num Spec

noncomputable section

open Classical in
/-- an objective in residual mode made from real functions -/
def resObj {n m : ℕ} (r : (Fin n → ℝ) → Fin m → ℝ) (J : (Fin n → ℝ) → Fin m → Fin n → ℝ) (v : Vec Num n) : Ret Num :=
  if h : ∃ x, v = ofV x then .tuple [.ofVec (ofV (r h.choose)), .ofMat (ofM (J h.choose))] else .raised

theorem resObj_real {n m : ℕ} (r : (Fin n → ℝ) → Fin m → ℝ) (J : (Fin n → ℝ) → Fin m → Fin n → ℝ) (x : Fin n → ℝ) :
    resObj r J (ofV x) = .tuple [.ofVec (ofV (r x)), .ofMat (ofM (J x))] := by
  have h : ∃ y, (ofV x : Vec Num n) = ofV y := ⟨x, rfl⟩
  have hx : h.choose = x := (ofV_inj.mp h.choose_spec).symm
  unfold resObj
  rw [dif_pos h, hx]

def sqR (x : Fin 1 → ℝ) (_ : Fin 1) : ℝ := x 0 ^ 2 + 1
def sqJ (x : Fin 1 → ℝ) (_ _ : Fin 1) : ℝ := 2 * x 0

/-- the step by -1/2 -/
def sqStep : Step Num 1 :=
  { type := .twoD, x := v1 1, subspace := [], s0 := ofV fun _ => 0, ss0 := ofV fun _ => 0, s := ofV fun _ => -1 / 2, sc := [], ss := ofV fun _ => -1 / 2,
    ogS := vzero, ogSc := [], ogSs := vzero, br := vzero, minbr := fin 1, alpha := fin 1, iminbr := fun _ => false, qpval := fin (-39 / 32),
    reflIdx := fun _ => false, truncIdx := fun _ => false, posdef := none, newton := none }

/-- no bounds, default options -/
def sqEnv : Env Num 1 :=
  { plainEnv 1 (resObj sqR sqJ) (fun _ => exactRoutines) with nargout := 2, resfun := true, tr := fun _ _ => .ok sqStep }

theorem sq_residuals : ReturnsResiduals sqEnv sqR sqJ := ⟨rfl, rfl, fun _ x => resObj_real sqR sqJ x⟩

/-- the evaluation at a real point -/
def sqOut (x : Fin 1 → ℝ) (k : ℕ) : Funout Num 1 :=
  { x := ofV x, xId := k, fval := fin ((x 0 ^ 2 + 1) ^ 2 / 2), grad := ofV fun _ => 2 * x 0 * (x 0 ^ 2 + 1), hess := some (ofM fun _ _ => 4 * x 0 ^ 2),
    res := some { m := 1, res := ofV (sqR x), sres := ofM (sqJ x) } }

theorem sq_raw (x : Fin 1 → ℝ) (k j : ℕ) : ∃ raw, funEval sqEnv.nargout sqEnv.resfun (sqEnv.obj j (ofV x)) = .ok raw ∧ checkdims 1 raw = .ok () ∧ raw.typed (ofV x) k = some (sqOut x k) := by
  have h0 : sqEnv.obj j (ofV x) = .tuple [.ofVec (ofV (sqR x)), .ofMat (ofM (sqJ x))] := sq_residuals.obj j x
  rw [h0]
  refine ⟨_, rfl, rfl, ?_⟩
  have ht : ∃ fo, (resOut 1 1 (List.ofFn (ofV (sqR x))) ((List.ofFn fun i => List.ofFn (ofM (sqJ x) i)).flatten) : RawOut Num).typed (ofV x : Vec Num 1) k = some fo ∧ fo.x = ofV x ∧ fo.xId = k := ⟨_, rfl, rfl, rfl⟩
  obtain ⟨fo, h1, h2, h3⟩ := ht
  obtain ⟨e1, e2, e3, e4⟩ := least_squares_out 1 (sqR x) (sqJ x) _ _ k fo rfl h1
  refine h1.trans ?_
  congr 1
  obtain ⟨a, b, c, d, e, f⟩ := fo
  simp only at h2 h3 e1 e2 e3 e4
  subst h2 h3 e1 e2 e3 e4
  unfold sqOut
  congr 1
  · congr 1; simp [sqR]
  · funext i; simp [sqR, sqJ]
  · congr 1; funext i j; simp [sqJ, ofM]; ring

variable (g : Happ Num 1)

/-- the optimizer at the first loop head -/
def sqHead : St Num 1 :=
  { setupState (startState sqEnv (ofV fun _ => 1) "run" (St.new sqEnv.opts (some g))) (sqOut (fun _ => 1) (startState sqEnv (ofV fun _ => 1) "run" (St.new sqEnv.opts (some g))).xId)
      (some (g.initMat none)) with converged := false }

theorem sq_start : LoopHead sqEnv (ofV fun _ => 1) "run" (.val .none) (St.new sqEnv.opts (some g)) 0 (sqHead g)
    (sqOut (fun _ => 1) (startState sqEnv (ofV fun _ => 1) "run" (St.new sqEnv.opts (some g))).xId) := by
  have hx : (startState sqEnv (ofV fun _ => 1) "run" (St.new sqEnv.opts (some g))).x = ofV fun _ => 1 := by
    show nudge sqEnv.lb sqEnv.ub (ofV fun _ => 1) = _
    exact C51_nudge _ _ _ (fun _ => ⟨rfl, rfl⟩)
  obtain ⟨raw, h1, h2, h3⟩ := sq_raw (fun _ => 1) (startState sqEnv (ofV fun _ => 1) "run" (St.new sqEnv.opts (some g))).xId
    (startState sqEnv (ofV fun _ => 1) "run" (St.new sqEnv.opts (some g))).evals.length
  refine LoopHead.start (startState sqEnv (ofV fun _ => 1) "run" (St.new sqEnv.opts (some g))) _ _ ?_ ?_
  · rw [hx, checkInBounds, if_pos]
    exact inBounds_real _ _ _ (fun i => ⟨rfl, rfl⟩)
  · refine setup_forward _ _ _ raw _ _ (by rw [hx]; exact h1) rfl h2 (by rw [hx]; exact h3) ?_
    simp [sqOut, allFinite, vfinite, mfinite, ofV, ofM]

theorem sq_frame : (sqHead g).x = (ofV fun _ => 1) ∧ (sqHead g).fval = fin 2 ∧ (sqHead g).grad = (ofV fun _ => 4) ∧ (sqHead g).hess = (g.initMat none).getMat ∧
    (sqHead g).happ = some (g.initMat none) ∧ (sqHead g).delta = fin 1 ∧ (sqHead g).iteration = 0 ∧ (sqHead g).starttime = fin 0 := by
  have hx : (startState sqEnv (ofV fun _ => 1) "run" (St.new sqEnv.opts (some g))).x = ofV fun _ => 1 := by
    show nudge sqEnv.lb sqEnv.ub (ofV fun _ => 1) = _
    exact C51_nudge _ _ _ (fun _ => ⟨rfl, rfl⟩)
  obtain ⟨a, b, c, d, hf⟩ := setupState_frame (startState sqEnv (ofV fun _ => 1) "run" (St.new sqEnv.opts (some g)))
    (sqOut (fun _ => 1) (startState sqEnv (ofV fun _ => 1) "run" (St.new sqEnv.opts (some g))).xId) (some (g.initMat none))
  have hd : (startState sqEnv (ofV fun _ => 1) "run" (St.new sqEnv.opts (some g))).delta = fin 1 := by
    show (resolveOpts [] : Opts Num).deltaInit = _
    rw [demo_opts]
  have h1 : (sqOut (fun _ => 1) (startState sqEnv (ofV fun _ => 1) "run" (St.new sqEnv.opts (some g))).xId).fval = fin 2 := by simp [sqOut]; norm_num
  have h2 : (sqOut (fun _ => 1) (startState sqEnv (ofV fun _ => 1) "run" (St.new sqEnv.opts (some g))).xId).grad = ofV fun _ => 4 := by simp [sqOut]; norm_num
  unfold sqHead
  rw [hf]
  exact ⟨hx, h1, h2, rfl, rfl, hd, rfl, rfl⟩

/-- the evaluation at the trial point -/
def sqNew : Funout Num 1 := sqOut (fun _ => 1 / 2) (sqHead g).nextId

theorem sq_pass (hm : (g.initMat none).getMat = ofM fun _ _ => 1)
    (hu : ∀ st, ∃ g', updateHapp st (g.initMat none) sqStep (sqNew g) (sqOut (fun _ => 1) (startState sqEnv (ofV fun _ => 1) "run" (St.new sqEnv.opts (some g))).xId) = .ok g') :
    ∃ next, Pass sqEnv (sqHead g) (sqOut (fun _ => 1) (startState sqEnv (ofV fun _ => 1) "run" (St.new sqEnv.opts (some g))).xId) sqStep (sqNew g) next (sqNew g) ∧
      next.fval = fin (25 / 32) ∧ (sqHead g).fval = fin 2 ∧ (sqHead g).happ = some (g.initMat none) ∧ (sqHead g).x = ofV fun _ => 1 := by
  obtain ⟨fx, ff, fg, fh, fp, fd, fi, ft⟩ := sq_frame g
  rw [hm] at fh
  have hcont : checkContinue sqEnv (sqHead g) = (true, { (sqHead g) with ticks := (sqHead g).ticks + 1 }) := by
    have e1 : (sqHead g).converged = false := rfl
    have e4 : sqEnv.opts.maxiter = 1000 ∧ sqEnv.opts.maxtime = pinf := by
      constructor
      · show (resolveOpts [] : Opts Num).maxiter = _; rw [demo_opts]
      · show (resolveOpts [] : Opts Num).maxtime = _; rw [demo_opts]
    have e5 : ∀ k, sqEnv.clock k = fin 0 := fun _ => rfl
    unfold checkContinue
    simp only [e1, fi, ft, e4.1, e4.2, e5, fd, Bool.false_eq_true, if_false]
    norm_num [spacing1]
  set pre : St Num 1 := { (sqHead g) with ticks := (sqHead g).ticks + 1 } with hpre
  have htp : trialPoint pre sqStep = ofV fun _ => 1 / 2 := by
    show vadd (vadd (sqHead g).x sqStep.s) sqStep.s0 = _
    rw [fx]
    funext i
    simp [vadd, sqStep]; norm_num
  have hout : trialOut sqEnv pre sqStep = .ok (sqNew g) := by
    obtain ⟨raw, h1, h2, h3⟩ := sq_raw (fun _ => 1 / 2) (sqHead g).nextId pre.evals.length
    exact trialOut_forward _ _ _ raw _ (by rw [htp]; exact h1) (by rw [htp]; exact h3)
  have hnv : (sqNew g).fval = fin (25 / 32) := by simp [sqNew, sqOut]; norm_num
  have hnf : allFinite (sqNew g).fval (sqNew g).grad (sqNew g).hess = true := by
    simp [sqNew, sqOut, allFinite, vfinite, mfinite, ofV, ofM]
  have hfin : allFinite pre.fval pre.grad (some pre.hess) = true := by
    show allFinite (sqHead g).fval (sqHead g).grad (some (sqHead g).hess) = true
    rw [ff, fg, fh]
    simp [allFinite, vfinite, mfinite, ofV, ofM]
  have hdv : (trInput sqEnv (preIter pre)).dv = ofV 0 := (C51_scaling sqEnv (preIter pre) (fun _ => 1) (fun _ => 4) (fun _ _ => 1) (fun _ => ⟨rfl, rfl⟩) fx fg fh).2.1
  have hrat : ratioOf (afterEval pre sqStep (.ok (sqNew g))).fval (sqNew g) sqStep (trInput sqEnv (preIter pre)).dv = fin 1 := by
    unfold ratioOf
    have h1 : (afterEval pre sqStep (.ok (sqNew g))).fval = fin 2 := ff
    rw [h1, hnv, hdv]
    have h2 : dot (vadd sqStep.ss sqStep.ss0) (fun i => (ofV (0 : Fin 1 → ℝ) i : Num) * FloatOps.abs ((sqNew g).grad i) * vadd sqStep.ss sqStep.ss0 i) = fin 0 := by
      have h3 : (fun i => (ofV (0 : Fin 1 → ℝ) i : Num) * FloatOps.abs ((sqNew g).grad i) * vadd sqStep.ss sqStep.ss0 i) = ofV 0 := by
        funext i; simp [sqNew, sqOut, sqStep, vadd]
      rw [h3, show vadd sqStep.ss sqStep.ss0 = ofV (fun _ => -1 / 2 : Fin 1 → ℝ) from by funext i; simp [vadd, sqStep], dot_ofV, rdot_zero]
    rw [h2]
    simp [sqStep]
    norm_num
  have hacc : (radiusStep sqEnv pre sqStep (sqNew g)).1 = true := by
    unfold radiusStep
    rcases updateTrRadius_cases sqEnv (sqNew g) sqStep (trInput sqEnv (preIter pre)).dv (afterEval pre sqStep (.ok (sqNew g))) with ⟨h, _⟩ | ⟨_, r', hr', h⟩
    · rw [hnv] at h; simp at h
    · rw [hrat] at hr'
      subst hr'
      rcases h with ⟨_, _, h⟩ | ⟨_, _, h⟩ | ⟨_, _, m, h⟩ <;> rw [h] <;> simp
  have hpp : (postCheck sqEnv pre sqStep (sqNew g)).happ = some (g.initMat none) ∧ (postCheck sqEnv pre sqStep (sqNew g)).evals = { arg := trialPoint pre sqStep, out := .ok (sqNew g) } :: pre.evals := by
    obtain ⟨r, dl, it, ni, hfr⟩ := updateTrRadius_frame sqEnv (sqNew g) sqStep (trInput sqEnv (preIter pre)).dv (afterEval pre sqStep (.ok (sqNew g)))
    have hrs : (radiusStep sqEnv pre sqStep (sqNew g)).2 = _ := hfr
    unfold postCheck
    obtain ⟨a, b, c, d, hf⟩ := trackMinimum_frame (sqNew g) (checkConvergence sqEnv sqStep (sqNew g) (radiusStep sqEnv pre sqStep (sqNew g)).2)
    obtain ⟨cv, ef, hcv⟩ : ∃ cv ef, checkConvergence sqEnv sqStep (sqNew g) (radiusStep sqEnv pre sqStep (sqNew g)).2 = { (radiusStep sqEnv pre sqStep (sqNew g)).2 with exitflag := ef, converged := cv } := by
      unfold checkConvergence
      simp only
      split_ifs <;> exact ⟨_, _, rfl⟩
    rw [hf, hcv, hrs]
    exact ⟨fp, rfl⟩
  obtain ⟨g', hg'⟩ := hu (postCheck sqEnv pre sqStep (sqNew g))
  have hib : inBounds sqEnv.lb sqEnv.ub (sqNew g).x = true := inBounds_real _ _ _ (fun i => ⟨rfl, rfl⟩)
  obtain ⟨st4, hup, hup1, hup2⟩ : ∃ st4, update sqEnv sqStep (sqNew g) (sqOut (fun _ => 1) (startState sqEnv (ofV fun _ => 1) "run" (St.new sqEnv.opts (some g))).xId) (postCheck sqEnv pre sqStep (sqNew g)) = .ok st4 ∧
      st4.fval = fin (25 / 32) ∧ st4.evals = { arg := trialPoint pre sqStep, out := .ok (sqNew g) } :: pre.evals := by
    unfold update
    simp only [hpp.1, hg', checkInBounds, hib, if_true]
    exact ⟨_, rfl, hnv, hpp.2⟩
  have hhist : sqEnv.opts.history = false := by show (resolveOpts [] : Opts Num).history = _; rw [demo_opts]
  have hit := iterate_accept sqEnv pre st4 _ sqStep (sqNew g) hhist hfin rfl hout hnf hacc hup
  exact ⟨st4, ⟨hcont, hit, rfl, hup2, htp.symm⟩, hup1, ff, fp, fx⟩

/-- the hypotheses of `C56_ssm` and `C56_tssm` are met in runs with the default settings: residual `x² + 1`, step from 1 to 1/2, curvatures positive -/
example (g : Happ Num 1) (hg : g = .ssm (Structured.new (fin 0) true) ∨ g = .tssm (Structured.new (fin 0) true)) :
    ∃ (a : Structured Num 1) (A : Fin 1 → Fin 1 → ℝ) (cur : Funout Num 1) (step : Step Num 1) (new : Funout Num 1) (next : St Num 1),
      LoopHead sqEnv (ofV fun _ => 1) "run" (.val .none) (St.new sqEnv.opts (some g)) 0 (sqHead g) cur ∧ Pass sqEnv (sqHead g) cur step new next new ∧
      lt next.fval (sqHead g).fval = true ∧ cur.x = ofV (fun _ => 1) ∧ ((sqHead g).happ = some (.ssm a) ∨ (sqHead g).happ = some (.tssm a)) ∧ a.phi = fin 0 ∧ a.A = ofM A ∧
      (sqHead g).x = ofV (fun _ => 1) ∧ new.x = ofV (fun _ => 1 / 2) ∧ A 0 0 = 1 / 4503599627370496 := by
  have hA : ((Structured.new (fin 0) true).initMat none : Structured Num 1).A = ofM fun _ _ => 1 / 4503599627370496 := by
    funext i j
    simp [Structured.initMat, meye, Subsingleton.elim i j, spacing1, ofM]
  have hone : (meye : Mat Num 1 1) = ofM fun _ _ => 1 := by
    funext i j
    simp [meye, Subsingleton.elim i j, ofM]
  have hcast : ∀ (a : Vec Num 1) (b : Mat Num 1 1), (⟨1, a, b⟩ : ResData Num 1).castTo 1 = some (a, b) := fun _ _ => rfl
  rcases hg with rfl | rfl
  · obtain ⟨next, h1, h2, h3, h4, h5⟩ := sq_pass (.ssm (Structured.new (fin 0) true)) hone (fun st => ⟨_, rfl⟩)
    exact ⟨_, _, _, _, _, next, sq_start _, h1, by rw [h2, h3]; norm_num, rfl, Or.inl h4, rfl, hA, h5, rfl, rfl⟩
  · obtain ⟨next, h1, h2, h3, h4, h5⟩ := sq_pass (.tssm (Structured.new (fin 0) true)) hone (fun st => ⟨_, rfl⟩)
    exact ⟨_, _, _, _, _, next, sq_start _, h1, by rw [h2, h3]; norm_num, rfl, Or.inr h4, rfl, hA, h5, rfl, rfl⟩

/-- and those of `C56_gnsbfgs` -/
example : ∃ (a : Structured Num 1) (A : Fin 1 → Fin 1 → ℝ) (cur : Funout Num 1) (step : Step Num 1) (new : Funout Num 1) (next : St Num 1),
    let g : Happ Num 1 := .gnsbfgs (fin (1 / 1000000)) (Structured.new (fin 0) true)
    LoopHead sqEnv (ofV fun _ => 1) "run" (.val .none) (St.new sqEnv.opts (some g)) 0 (sqHead g) cur ∧ Pass sqEnv (sqHead g) cur step new next new ∧
      lt next.fval (sqHead g).fval = true ∧ cur.x = ofV (fun _ => 1) ∧ (sqHead g).happ = some (.gnsbfgs (fin (1 / 1000000)) a) ∧ a.phi = fin 0 ∧ a.A = ofM A ∧
      (sqHead g).x = ofV (fun _ => 1) ∧ new.x = ofV (fun _ => 1 / 2) := by
  have hA : ((Structured.new (fin 0) true).initMat none : Structured Num 1).A = ofM fun _ _ => 1 / 4503599627370496 := by
    funext i j
    simp [Structured.initMat, meye, Subsingleton.elim i j, spacing1, ofM]
  have hone : (meye : Mat Num 1 1) = ofM fun _ _ => 1 := by
    funext i j
    simp [meye, Subsingleton.elim i j, ofM]
  obtain ⟨next, h1, h2, h3, h4, h5⟩ := sq_pass (.gnsbfgs (fin (1 / 1000000)) (Structured.new (fin 0) true)) hone (fun st => ⟨_, rfl⟩)
  exact ⟨_, _, _, _, _, next, sq_start _, h1, by rw [h2, h3]; norm_num, rfl, h4, rfl, hA, h5, rfl⟩

/-- the curvatures of this step: `J(x')ᵀJ(x') d + (J(x') - J(z))ᵀ r(x') = -7/4` for `d = -1/2` -/
example : rmv (gaussNewton (sqJ fun _ => 1 / 2)) (fun _ => -1 / 2) + jacT (sqJ (fun _ => 1 / 2) - sqJ (fun _ => 1)) (sqR fun _ => 1 / 2) = fun _ => -7 / 4 := by
  funext i
  simp [rmv, rdot, gaussNewton, jacT, sqJ, sqR]; norm_num

/-- the hypotheses of `C37_run` are met: the residual vanishes nowhere, and the run above has a second loop head -/
example : (∀ x, sqR x ≠ 0) ∧ ∃ st cur, LoopHead sqEnv (ofV fun _ => 1) "run" (.val .none) (St.new sqEnv.opts (some (.gnsbfgs (fin (1 / 1000000)) (Structured.new (lit 0) true)))) 1 st cur := by
  refine ⟨fun x h => ?_, ?_⟩
  · have := congrFun h 0
    simp only [sqR, Pi.zero_apply] at this
    nlinarith [sq_nonneg (x 0)]
  · have hone : (meye : Mat Num 1 1) = ofM fun _ _ => 1 := by
      funext i j
      simp [meye, Subsingleton.elim i j, ofM]
    obtain ⟨next, h1, -⟩ := sq_pass (.gnsbfgs (fin (1 / 1000000)) (Structured.new (lit 0) true)) hone (fun st => ⟨_, rfl⟩)
    exact ⟨next, _, .next _ _ _ _ _ _ (sq_start _) h1.continues h1.body⟩

end
end Fides
