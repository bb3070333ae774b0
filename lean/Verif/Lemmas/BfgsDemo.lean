import Verif.Lemmas.HybridDemo

/-!
# A run with an iterative Hessian approximation

The demo run (see `Demo`) with an objective that returns value and gradient only: value 1/2 and gradient 1 at `x = 1`, value 0 and gradient `G` elsewhere.
The step from 1 to 0 is accepted, the gradient difference is `G - 1`; with `BFGS()` and `G = -1` the new model Hessian is 2.
-/

namespace Fides
open Num Spec

noncomputable section

open Classical in
/-- the surroundings of the run -/
def qnEnv (G : ℝ) : Env Num 1 :=
  { demoEnv 1 (fin 0) (fin G) with
    nargout := 2
    obj := fun _ x => if x = v1 1 then .tuple [.scalar (fin (1 / 2)), .arr [1] [fin 1]] else .tuple [.scalar (fin 0), .arr [1] [fin G]] }

/-- a fresh optimizer with `BFGS()` -/
def qnSt0 (sch : IterScheme Num) : St Num 1 := St.new (resolveOpts []) (some (.iter (IterApprox.new sch)))

/-- the approximation after `_init_mat` -/
def qnInit (sch : IterScheme Num) : Happ Num 1 := .iter ((IterApprox.new sch).initMat none)

/-- the first evaluation -/
def qnFirst (G : ℝ) (sch : IterScheme Num) : Funout Num 1 := { demoFirst (startState (qnEnv G) (v1 1) "run" (qnSt0 sch)).xId with hess := none }

/-- the optimizer at the first loop head -/
def qnHead (G : ℝ) (sch : IterScheme Num) : St Num 1 := { setupState (startState (qnEnv G) (v1 1) "run" (qnSt0 sch)) (qnFirst G sch) (some (qnInit sch)) with converged := false }

theorem typed_two (f g : Num) (x : Vec Num 1) (k : ℕ) :
    (RawOut.typed { fval := .scalar f, grad := .arr [1] [g], hess := .none, res := .none, sres := .none } x k) =
      some { x := x, xId := k, fval := f, grad := fun _ => g, hess := none, res := none } := by
  simp only [RawOut.typed, PyVal.toVec?, RawOut.resData, if_true]
  congr 2
  funext i; simp

theorem qn_start (G : ℝ) (sch : IterScheme Num) : LoopHead (qnEnv G) (v1 1) "run" (.val .none) (qnSt0 sch) 0 (qnHead G sch) (qnFirst G sch) := by
  have hx : (startState (qnEnv G) (v1 1) "run" (qnSt0 sch)).x = v1 1 := demo_nudge 1 (fin 0) (fin G) 1
  have hb : inBounds (qnEnv G).lb (qnEnv G).ub (v1 1) = true := inBounds_real _ _ _ (demo_box 1 (fin 0) (fin G) 1)
  refine LoopHead.start (startState (qnEnv G) (v1 1) "run" (qnSt0 sch)) _ _ ?_ ?_
  · rw [hx, checkInBounds, if_pos hb]
  · refine setup_forward _ _ _ { fval := .scalar (fin (1 / 2)), grad := .arr [1] [fin 1], hess := .none, res := .none, sres := .none } _ _ ?_ ?_ ?_ ?_ ?_
    · rw [hx]; simp [qnEnv, demoEnv, funEval]
    · rfl
    · rfl
    · rw [hx, typed_two]; rfl
    · simp [qnFirst, demoFirst, allFinite, vfinite, v1]

/-- the head agrees with that of the plain demo run in everything the first pass reads, apart from approximation and log -/
theorem qnHead_eq (G : ℝ) (sch : IterScheme Num) : (qnHead G sch) = { demoHead 1 (fin 0) (fin G) (qnSt0 sch) with happ := some (qnInit sch), evals := (qnHead G sch).evals } := by
  have hm : (qnInit sch).getMat = fun _ _ => fin 1 := by
    funext i j
    simp [qnInit, IterApprox.initMat, Happ.getMat, IterApprox.getMat, meye, Subsingleton.elim i j]
  have hm' : (demoFirst (startState (demoEnv 1 (fin 0) (fin G)) (v1 1) "run" (qnSt0 sch)).xId).hess.getD mzero = fun _ _ => fin 1 := rfl
  unfold qnHead demoHead setupState trackMinimum
  simp only [logStart] at hm' ⊢
  simp only [hm, hm']
  have hc1 : (isFinite (qnFirst G sch).fval && lt (qnFirst G sch).fval (startState (qnEnv G) (v1 1) "run" (qnSt0 sch)).fvalMin) =
    (isFinite (demoFirst (startState (demoEnv 1 (fin 0) (fin G)) (v1 1) "run" (qnSt0 sch)).xId).fval &&
      lt (demoFirst (startState (demoEnv 1 (fin 0) (fin G)) (v1 1) "run" (qnSt0 sch)).xId).fval
        (startState (demoEnv 1 (fin 0) (fin G)) (v1 1) "run" (qnSt0 sch)).fvalMin) := rfl
  rw [hc1]
  split <;> rfl

theorem updateTrRadius_evals (E : Env Num 1) (fo : Funout Num 1) (step : Step Num 1) (dv : Vec Num 1) (st : St Num 1)
    (ev : List (EvalRec Num 1)) : updateTrRadius E fo step dv { st with evals := ev } =
      ((updateTrRadius E fo step dv st).1, { (updateTrRadius E fo step dv st).2 with evals := ev }) := by
  unfold updateTrRadius
  simp only
  cases isFinite fo.fval
  · rfl
  · generalize (if le (-step.qpval) (lit 0) = true then (lit 0 : Num) else _) = r
    simp only [Bool.not_true, Bool.false_eq_true, if_false]
    cases (le E.opts.eta r && !lt (Fides.norm (vadd step.ss step.ss0)) (st.deltaIter * lit (9 / 10)))
    · cases le r E.opts.mu
      · cases (lt E.opts.mu r && lt r E.opts.eta) <;> rfl
      · rfl
    · rfl

theorem qn_pass_full (G : ℝ) (sch : IterScheme Num) : ∃ step new next cur', (Pass (qnEnv G) (qnHead G sch) (qnFirst G sch) step new next cur' ∧ next.fval = fin 0 ∧
    next.hess = (((IterApprox.new sch).initMat none).update (v1 (-1)) (v1 (G - 1))).getMat ∧ (qnHead G sch).fval = fin (1 / 2) ∧ (qnHead G sch).happ = some (qnInit sch) ∧ new.x = v1 0 ∧ next.grad = v1 G ∧
    (qnHead G sch).grad = v1 1 ∧ (qnHead G sch).x = v1 1) ∧ next.converged = true := by
  obtain ⟨step, hstep⟩ := demo_step
  obtain ⟨htr, h2, h3, h4, h5, h6⟩ := hstep 1 (fin 0) (fin G) (qnSt0 sch)
  obtain ⟨hf, hd, hi, hx, hgr, hhap, hid⟩ := demo_frame 1 (fin 0) (fin G) (qnSt0 sch)
  obtain ⟨hr1, hr2, hr3⟩ := demo_radius 1 0 G (qnSt0 sch) step (demoHead 1 (fin 0) (fin G) (qnSt0 sch)).nextId h4 h5 h6
  have hfin := demo_finite 1 (fin 0) (fin G) (qnSt0 sch)
  have hhist : (qnEnv G).opts.history = false := by show (resolveOpts [] : Opts Num).history = _; rw [demo_opts]
  have hcont := demo_continue 1 (fin 0) (fin G) (qnSt0 sch)
  have htp := demo_trialPoint 1 (fin 0) (fin G) (qnSt0 sch) step h2 h3
  have hhd := qnHead_eq G sch
  generalize hev : (qnHead G sch).evals = ev at hhd
  have hgen : ∀ (E : Env Num 1) (st st' : St Num 1) (hp : Option (Happ Num 1)), checkContinue E st = (true, st') →
      checkContinue E { st with happ := hp, evals := ev } = (true, { st' with happ := hp, evals := ev }) := by
    intro E st st' hp hc
    unfold checkContinue at hc ⊢
    simp only at hc ⊢
    repeat' split at hc
    all_goals cases hc
    all_goals simp_all
  have hcont' : checkContinue (qnEnv G) (qnHead G sch) = (true, { demoPre 1 (fin 0) (fin G) (qnSt0 sch) with happ := some (qnInit sch), evals := ev }) := by
    rw [hhd]; exact hgen _ _ _ _ hcont
  generalize hpre : ({ demoPre 1 (fin 0) (fin G) (qnSt0 sch) with happ := some (qnInit sch), evals := ev } : St Num 1) = pre at hcont'
  generalize hnew : ({ demoTrial (fin 0) (fin G) (demoHead 1 (fin 0) (fin G) (qnSt0 sch)).nextId with hess := none } : Funout Num 1) = new
  have hnf : allFinite new.fval new.grad new.hess = true := by
    rw [← hnew]; simp [demoTrial, allFinite, vfinite]
  have hout : trialOut (qnEnv G) pre step = .ok new := by
    have ht : trialPoint pre step = v1 0 := by rw [← htp, ← hpre]; rfl
    refine trialOut_forward _ _ _ { fval := .scalar (fin 0), grad := .arr [1] [fin G], hess := .none, res := .none, sres := .none } _ ?_ ?_
    · rw [ht]; simp [qnEnv, demoEnv, funEval, v1_ne]
    · rw [ht, typed_two, ← hnew, ← hpre]; rfl
  have hrad : (radiusStep (qnEnv G) pre step new).1 = true ∧ (radiusStep (qnEnv G) pre step new).2.trRatio = fin 1 := by
    have h1 : radiusStep (qnEnv G) pre step new = updateTrRadius (demoEnv 1 (fin 0) (fin G)) (demoTrial (fin 0) (fin G) (demoHead 1 (fin 0) (fin G) (qnSt0 sch)).nextId) step
        (trInput (demoEnv 1 (fin 0) (fin G)) (preIter (demoPre 1 (fin 0) (fin G) (qnSt0 sch)))).dv
        { ({ afterEval (demoPre 1 (fin 0) (fin G) (qnSt0 sch)) step (.ok new) with evals := (afterEval pre step (.ok new)).evals } : St Num 1) with happ := some (qnInit sch) } := by
      subst hpre hnew
      rfl
    rw [h1, updateTrRadius_happ, updateTrRadius_evals]
    refine ⟨hr1.trans (by simp), ?_⟩
    have h2 : afterEval (demoPre 1 (fin 0) (fin G) (qnSt0 sch)) step (.ok new) =
        { afterEval (demoPre 1 (fin 0) (fin G) (qnSt0 sch)) step
            (.ok (demoTrial (fin 0) (fin G) (demoHead 1 (fin 0) (fin G) (qnSt0 sch)).nextId)) with
          evals := (afterEval (demoPre 1 (fin 0) (fin G) (qnSt0 sch)) step (.ok new)).evals } := rfl
    rw [h2, updateTrRadius_evals]
    have h3 : (radiusStep (demoEnv 1 (fin 0) (fin G)) (demoPre 1 (fin 0) (fin G) (qnSt0 sch)) step
        (demoTrial (fin 0) (fin G) (demoHead 1 (fin 0) (fin G) (qnSt0 sch)).nextId)).2.trRatio = fin 1 := hr2.trans (by norm_num)
    exact h3
  obtain ⟨hrad, hratio⟩ := hrad
  obtain ⟨r, dl, it, ni, hfr⟩ := updateTrRadius_frame (qnEnv G) new step (trInput (qnEnv G) (preIter pre)).dv (afterEval pre step (.ok new))
  have hrs : (radiusStep (qnEnv G) pre step new).2 = _ := hfr
  have hf' : pre.fval = fin (1 / 2) ∧ pre.grad = v1 1 ∧ pre.x = v1 1 ∧ pre.happ = some (qnInit sch) ∧ pre.evals = ev := by
    rw [← hpre]; exact ⟨hf, hgr, hx, rfl, rfl⟩
  obtain ⟨hf', hgr', hx', hhap', hev'⟩ := hf'
  have hconvf : ∀ st, ∃ cv ef, checkConvergence (qnEnv G) step new st = { st with exitflag := ef, converged := cv } := by
    intro st
    unfold checkConvergence
    simp only
    split_ifs <;> exact ⟨_, _, rfl⟩
  obtain ⟨cv, ef, hcv⟩ := hconvf (radiusStep (qnEnv G) pre step new).2
  have hcvt : cv = true := by
    have h1 : (checkConvergence (qnEnv G) step new (radiusStep (qnEnv G) pre step new).2).converged = true := by
      have hfv : (radiusStep (qnEnv G) pre step new).2.fval = fin (1 / 2) := by rw [hrs]; exact hf'
      obtain ⟨e1, e2, e3, e4⟩ := demo_fatol 1 (fin 0) (fin G)
      unfold checkConvergence
      simp only
      rw [if_pos]
      rw [hratio, hfv]
      have hnv : new.fval = fin 0 := by rw [← hnew]; rfl
      show (lt (demoEnv 1 (fin 0) (fin G)).opts.mu (fin 1) && lt (FloatOps.abs (new.fval - fin (1 / 2)))
        ((demoEnv 1 (fin 0) (fin G)).opts.fatol + (demoEnv 1 (fin 0) (fin G)).opts.frtol * FloatOps.abs (fin (1 / 2)))) = true
      rw [hnv, e1, e2, e4]
      norm_num [abs_of_neg, abs_of_pos]
    rw [hcv] at h1
    exact h1
  obtain ⟨a, b, c, e, hpc⟩ : ∃ a b c e, postCheck (qnEnv G) pre step new =
      { afterEval pre step (.ok new) with
        trRatio := r, delta := dl, iterSinceTr := it, nIntermediate := ni, exitflag := ef, converged := cv,
        xMin := a, xMinId := b, fvalMin := c, gradMin := e } := by
    unfold postCheck
    rw [hcv, hrs]
    obtain ⟨a, b, c, e, h⟩ := trackMinimum_frame new
      { afterEval pre step (.ok new) with
        trRatio := r, delta := dl, iterSinceTr := it, nIntermediate := ni, exitflag := ef, converged := cv }
    exact ⟨a, b, c, e, h⟩
  have hib : inBounds (qnEnv G).lb (qnEnv G).ub new.x = true := by
    rw [← hnew]; exact inBounds_real _ _ _ (demo_box 1 (fin 0) (fin G) 0)
  have hup : ∃ st4, update (qnEnv G) step new (qnFirst G sch) (postCheck (qnEnv G) pre step new) = .ok st4 ∧ st4.fval = fin 0 ∧ st4.grad = v1 G ∧
      st4.hess = (((IterApprox.new sch).initMat none).update (v1 (-1)) (v1 (G - 1))).getMat ∧ st4.evals = { arg := trialPoint pre step, out := .ok new } :: pre.evals ∧
      st4.converged = true := by
    have hpp : (postCheck (qnEnv G) pre step new).happ = some (qnInit sch) := by rw [hpc]; exact hhap'
    have hpg : (postCheck (qnEnv G) pre step new).grad = v1 1 := by rw [hpc]; exact hgr'
    have hs : vadd (v1 (-1)) (v1 0) = v1 (-1) := by apply v1_eq; simp [vadd, v1]
    have hy : vsub new.grad (v1 1) = v1 (G - 1) := by
      rw [← hnew]; apply v1_eq; simp [vsub, v1, demoTrial]
    have hu : updateHapp (postCheck (qnEnv G) pre step new) (qnInit sch) step new (qnFirst G sch) =
        .ok (.iter (((IterApprox.new sch).initMat none).update (v1 (-1)) (v1 (G - 1)))) := by
      simp only [updateHapp, qnInit, h2, h3, hpg, hs, hy]
    unfold update
    simp only [hpp, hu, checkInBounds, hib, if_true]
    refine ⟨_, rfl, ?_, ?_, ?_, ?_, ?_⟩
    · rw [← hnew]; rfl
    · rw [← hnew]; rfl
    · rfl
    · simp only [makeNonDegenerate]; rw [hpc]; rfl
    · simp only [makeNonDegenerate]; rw [hpc]; exact hcvt
  obtain ⟨st4, hup1, hup2, hup3, hup4, hup5, hup6⟩ := hup
  have hit := iterate_accept (qnEnv G) pre st4 (qnFirst G sch) step new hhist
    (by rw [← hpre]; exact hfin) (by rw [← hpre]; exact htr) hout hnf
    hrad hup1
  have hpre' : ({ (qnHead G sch) with ticks := (qnHead G sch).ticks + 1 } : St Num 1) = pre := by rw [← hpre, hhd]; rfl
  have hnx : new.x = v1 0 := by rw [← hnew]; rfl
  refine ⟨step, new, st4, new, ⟨⟨?_, ?_, ?_, ?_, ?_⟩, hup2, hup4, ?_, ?_, hnx, hup3, ?_, ?_⟩, hup6⟩
  · rw [hcont', hpre']
  · rw [hpre']; exact hit
  · rw [hhd]; exact htr
  · rw [hup5, hev', ← hev, ← hpre']; rfl
  · rw [hnx, ← htp]; rw [hhd]; rfl
  · rw [hhd]; exact hf
  · rw [hhd]
  · rw [hhd]; exact hgr
  · rw [hhd]; exact hx

theorem qn_pass (G : ℝ) (sch : IterScheme Num) : ∃ step new next cur', Pass (qnEnv G) (qnHead G sch) (qnFirst G sch) step new next cur' ∧ next.fval = fin 0 ∧
    next.hess = (((IterApprox.new sch).initMat none).update (v1 (-1)) (v1 (G - 1))).getMat ∧ (qnHead G sch).fval = fin (1 / 2) ∧ (qnHead G sch).happ = some (qnInit sch) ∧ new.x = v1 0 ∧ next.grad = v1 G ∧
    (qnHead G sch).grad = v1 1 ∧ (qnHead G sch).x = v1 1 := by
  obtain ⟨step, new, next, cur', h, -⟩ := qn_pass_full G sch
  exact ⟨step, new, next, cur', h⟩

/-! ### with `BFGS()` and gradient -1 after the step -/

def bfgsEnv : Env Num 1 := qnEnv (-1)
def bfgsSt0 : St Num 1 := qnSt0 .bfgs
def bfgsInit : Happ Num 1 := qnInit .bfgs
def bfgsFirst : Funout Num 1 := qnFirst (-1) .bfgs
def bfgsHead : St Num 1 := qnHead (-1) .bfgs

theorem bfgs_start : LoopHead bfgsEnv (v1 1) "run" (.val .none) bfgsSt0 0 bfgsHead bfgsFirst := qn_start _ _

theorem bfgs_pass : ∃ step new next cur', Pass bfgsEnv bfgsHead bfgsFirst step new next cur' ∧ next.fval = fin 0 ∧
    next.hess = (fun _ _ => fin 2) ∧ bfgsHead.fval = fin (1 / 2) ∧ bfgsHead.happ = some bfgsInit ∧ new.x = v1 0 ∧ next.grad = v1 (-1) ∧
    bfgsHead.grad = v1 1 ∧ bfgsHead.x = v1 1 := by
  obtain ⟨step, new, next, cur', h1, h2, h3, h⟩ := qn_pass (-1) .bfgs
  refine ⟨step, new, next, cur', h1, h2, ?_, h⟩
  rw [h3]
  funext i j
  simp [IterApprox.getMat, IterApprox.update, IterApprox.initMat, IterApprox.new, IterScheme.bfgs, IterApprox.computeUpdate]
  rw [show (v1 (-1 - 1) : Vec Num 1) = ofV (fun _ => -2) from by apply v1_eq; norm_num [v1], show (v1 (-1) : Vec Num 1) = ofV (fun _ => -1) from rfl,
    broyden_fin _ _ _ _ _ (by simp [rdot_one]) (by simp [rdot_one, rmv]) (by intro _; simp [rdot_one]), madd_ofM]
  simp [rbroyden, rdot_one, rmv, Subsingleton.elim i 0, Subsingleton.elim j 0]

end
end Fides
