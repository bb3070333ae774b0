import Verif.Lemmas.BfgsDemo

/-!
# Runs with SR1 on quadratic functions

The function is `A/2 x^2 + (1-A) x + (A-1)/2`, with second derivative `A`, `1 ≤ A ≤ 3/2`; start at 1, default options except `fatol = 1`.  The step from 1 to 0
is accepted and the model Hessian goes from 1 to `A`; if `A = 1`, to NaN.
-/

namespace Fides
open Num Spec

noncomputable section

/-- the surroundings of the run -/
def srqEnv (A : ℝ) : Env Num 1 :=
  { demoEnv 1 (fin ((A - 1) / 2)) (fin (1 - A)) with
    nargout := 2
    obj := fun _ x => .tuple [.scalar (fin (A / 2) * x 0 * x 0 + fin (1 - A) * x 0 + fin ((A - 1) / 2)), .arr [1] [fin A * x 0 + fin (1 - A)]] }

/-- a fresh optimizer with `SR1()` -/
def srqSt0  : St Num 1 := St.new (resolveOpts []) (some (.iter (IterApprox.new .sr1)))

/-- the approximation after `_init_mat` -/
def srqInit  : Happ Num 1 := .iter ((IterApprox.new .sr1).initMat none)

/-- the first evaluation -/
def srqFirst (A : ℝ)  : Funout Num 1 := { demoFirst (startState (srqEnv A) (v1 1) "run" srqSt0).xId with hess := none }

/-- the optimizer at the first loop head -/
def srqHead (A : ℝ)  : St Num 1 := { setupState (startState (srqEnv A) (v1 1) "run" srqSt0) (srqFirst A) (some srqInit) with converged := false }

theorem srq_start (A : ℝ)  : LoopHead (srqEnv A) (v1 1) "run" (.val .none) srqSt0 0 (srqHead A) (srqFirst A) := by
  have hx : (startState (srqEnv A) (v1 1) "run" srqSt0).x = v1 1 := demo_nudge 1 (fin ((A - 1) / 2)) (fin (1 - A)) 1
  have hb : inBounds (srqEnv A).lb (srqEnv A).ub (v1 1) = true := inBounds_real _ _ _ (demo_box 1 (fin ((A - 1) / 2)) (fin (1 - A)) 1)
  refine LoopHead.start (startState (srqEnv A) (v1 1) "run" srqSt0) _ _ ?_ ?_
  · rw [hx, checkInBounds, if_pos hb]
  · refine setup_forward _ _ _ { fval := .scalar (fin (1 / 2)), grad := .arr [1] [fin 1], hess := .none, res := .none, sres := .none } _ _ ?_ ?_ ?_ ?_ ?_
    · rw [hx]; simp [srqEnv, demoEnv, funEval]; norm_num [v1]; ring
    · rfl
    · rfl
    · rw [hx, typed_two]; rfl
    · simp [srqFirst, demoFirst, allFinite, vfinite, v1]

/-- the head agrees with that of the plain demo run in everything the first pass reads, apart from approximation and log -/
theorem srqHead_eq (A : ℝ)  : (srqHead A) = { demoHead 1 (fin ((A - 1) / 2)) (fin (1 - A)) srqSt0 with happ := some srqInit, evals := (srqHead A).evals } := by
  have hm : srqInit.getMat = fun _ _ => fin 1 := by
    funext i j
    simp [srqInit, IterApprox.initMat, Happ.getMat, IterApprox.getMat, meye, Subsingleton.elim i j]
  have hm' : (demoFirst (startState (demoEnv 1 (fin ((A - 1) / 2)) (fin (1 - A))) (v1 1) "run" srqSt0).xId).hess.getD mzero = fun _ _ => fin 1 := rfl
  unfold srqHead demoHead setupState trackMinimum
  simp only [logStart] at hm' ⊢
  simp only [hm, hm']
  have hc1 : (isFinite (srqFirst A).fval && lt (srqFirst A).fval (startState (srqEnv A) (v1 1) "run" srqSt0).fvalMin) =
    (isFinite (demoFirst (startState (demoEnv 1 (fin ((A - 1) / 2)) (fin (1 - A))) (v1 1) "run" srqSt0).xId).fval &&
      lt (demoFirst (startState (demoEnv 1 (fin ((A - 1) / 2)) (fin (1 - A))) (v1 1) "run" srqSt0).xId).fval
        (startState (demoEnv 1 (fin ((A - 1) / 2)) (fin (1 - A))) (v1 1) "run" srqSt0).fvalMin) := rfl
  rw [hc1]
  split <;> rfl

theorem srq_pass_full (A : ℝ) (hA1 : 1 ≤ A) (hA2 : A ≤ 3 / 2)  : ∃ step new next cur', (Pass (srqEnv A) (srqHead A) (srqFirst A) step new next cur' ∧ next.fval = fin ((A - 1) / 2) ∧
    next.hess = (((IterApprox.new .sr1).initMat none).update (v1 (-1)) (v1 (-A))).getMat ∧ (srqHead A).fval = fin (1 / 2) ∧ (srqHead A).happ = some srqInit ∧ new.x = v1 0 ∧ next.grad = v1 (1 - A) ∧
    (srqHead A).grad = v1 1 ∧ (srqHead A).x = v1 1) ∧ next.converged = true := by
  obtain ⟨step, hstep⟩ := demo_step
  obtain ⟨htr, h2, h3, h4, h5, h6⟩ := hstep 1 (fin ((A - 1) / 2)) (fin (1 - A)) srqSt0
  obtain ⟨hf, hd, hi, hx, hgr, hhap, hid⟩ := demo_frame 1 (fin ((A - 1) / 2)) (fin (1 - A)) srqSt0
  obtain ⟨hr1, hr2, hr3⟩ := demo_radius 1 ((A - 1) / 2) (1 - A) srqSt0 step (demoHead 1 (fin ((A - 1) / 2)) (fin (1 - A)) srqSt0).nextId h4 h5 h6
  have hfin := demo_finite 1 (fin ((A - 1) / 2)) (fin (1 - A)) srqSt0
  have hhist : (srqEnv A).opts.history = false := by show (resolveOpts [] : Opts Num).history = _; rw [demo_opts]
  have hcont := demo_continue 1 (fin ((A - 1) / 2)) (fin (1 - A)) srqSt0
  have htp := demo_trialPoint 1 (fin ((A - 1) / 2)) (fin (1 - A)) srqSt0 step h2 h3
  have hhd := (srqHead_eq A)
  generalize hev : (srqHead A).evals = ev at hhd
  have hgen : ∀ (E : Env Num 1) (st st' : St Num 1) (hp : Option (Happ Num 1)), checkContinue E st = (true, st') →
      checkContinue E { st with happ := hp, evals := ev } = (true, { st' with happ := hp, evals := ev }) := by
    intro E st st' hp hc
    unfold checkContinue at hc ⊢
    simp only at hc ⊢
    repeat' split at hc
    all_goals cases hc
    all_goals simp_all
  have hcont' : checkContinue (srqEnv A) (srqHead A) = (true, { demoPre 1 (fin ((A - 1) / 2)) (fin (1 - A)) srqSt0 with happ := some srqInit, evals := ev }) := by
    rw [hhd]; exact hgen _ _ _ _ hcont
  generalize hpre : ({ demoPre 1 (fin ((A - 1) / 2)) (fin (1 - A)) srqSt0 with happ := some srqInit, evals := ev } : St Num 1) = pre at hcont'
  generalize hnew : ({ demoTrial (fin ((A - 1) / 2)) (fin (1 - A)) (demoHead 1 (fin ((A - 1) / 2)) (fin (1 - A)) srqSt0).nextId with hess := none } : Funout Num 1) = new
  have hnf : allFinite new.fval new.grad new.hess = true := by
    rw [← hnew]; simp [demoTrial, allFinite, vfinite]
  have hout : trialOut (srqEnv A) pre step = .ok new := by
    have ht : trialPoint pre step = v1 0 := by rw [← htp, ← hpre]; rfl
    refine trialOut_forward _ _ _ { fval := .scalar (fin ((A - 1) / 2)), grad := .arr [1] [fin (1 - A)], hess := .none, res := .none, sres := .none } _ ?_ ?_
    · rw [ht]; simp [srqEnv, demoEnv, funEval]; norm_num [v1]
    · rw [ht, typed_two, ← hnew, ← hpre]; rfl
  have hrad : (radiusStep (srqEnv A) pre step new).1 = true ∧ (radiusStep (srqEnv A) pre step new).2.trRatio = fin (2 - A) := by
    have h1 : radiusStep (srqEnv A) pre step new = updateTrRadius (demoEnv 1 (fin ((A - 1) / 2)) (fin (1 - A))) (demoTrial (fin ((A - 1) / 2)) (fin (1 - A)) (demoHead 1 (fin ((A - 1) / 2)) (fin (1 - A)) srqSt0).nextId) step
        (trInput (demoEnv 1 (fin ((A - 1) / 2)) (fin (1 - A))) (preIter (demoPre 1 (fin ((A - 1) / 2)) (fin (1 - A)) srqSt0))).dv
        { ({ afterEval (demoPre 1 (fin ((A - 1) / 2)) (fin (1 - A)) srqSt0) step (.ok new) with evals := (afterEval pre step (.ok new)).evals } : St Num 1) with happ := some srqInit } := by
      subst hpre hnew
      rfl
    rw [h1, updateTrRadius_happ, updateTrRadius_evals]
    refine ⟨hr1.trans (by norm_num; linarith), ?_⟩
    have h2 : afterEval (demoPre 1 (fin ((A - 1) / 2)) (fin (1 - A)) srqSt0) step (.ok new) =
        { afterEval (demoPre 1 (fin ((A - 1) / 2)) (fin (1 - A)) srqSt0) step
            (.ok (demoTrial (fin ((A - 1) / 2)) (fin (1 - A)) (demoHead 1 (fin ((A - 1) / 2)) (fin (1 - A)) srqSt0).nextId)) with
          evals := (afterEval (demoPre 1 (fin ((A - 1) / 2)) (fin (1 - A)) srqSt0) step (.ok new)).evals } := rfl
    rw [h2, updateTrRadius_evals]
    have h3 : (radiusStep (demoEnv 1 (fin ((A - 1) / 2)) (fin (1 - A))) (demoPre 1 (fin ((A - 1) / 2)) (fin (1 - A)) srqSt0) step
        (demoTrial (fin ((A - 1) / 2)) (fin (1 - A)) (demoHead 1 (fin ((A - 1) / 2)) (fin (1 - A)) srqSt0).nextId)).2.trRatio = fin (2 - A) := hr2.trans (by norm_num; ring)
    exact h3
  obtain ⟨hrad, hratio⟩ := hrad
  obtain ⟨r, dl, it, ni, hfr⟩ := updateTrRadius_frame (srqEnv A) new step (trInput (srqEnv A) (preIter pre)).dv (afterEval pre step (.ok new))
  have hrs : (radiusStep (srqEnv A) pre step new).2 = _ := hfr
  have hf' : pre.fval = fin (1 / 2) ∧ pre.grad = v1 1 ∧ pre.x = v1 1 ∧ pre.happ = some srqInit ∧ pre.evals = ev := by
    rw [← hpre]; exact ⟨hf, hgr, hx, rfl, rfl⟩
  obtain ⟨hf', hgr', hx', hhap', hev'⟩ := hf'
  have hconvf : ∀ st, ∃ cv ef, checkConvergence (srqEnv A) step new st = { st with exitflag := ef, converged := cv } := by
    intro st
    unfold checkConvergence
    simp only
    split_ifs <;> exact ⟨_, _, rfl⟩
  obtain ⟨cv, ef, hcv⟩ := hconvf (radiusStep (srqEnv A) pre step new).2
  have hcvt : cv = true := by
    have h1 : (checkConvergence (srqEnv A) step new (radiusStep (srqEnv A) pre step new).2).converged = true := by
      have hfv : (radiusStep (srqEnv A) pre step new).2.fval = fin (1 / 2) := by rw [hrs]; exact hf'
      obtain ⟨e1, e2, e3, e4⟩ := demo_fatol 1 (fin ((A - 1) / 2)) (fin (1 - A))
      unfold checkConvergence
      simp only
      rw [if_pos]
      rw [hratio, hfv]
      have hnv : new.fval = fin ((A - 1) / 2) := by rw [← hnew]; rfl
      show (lt (demoEnv 1 (fin ((A - 1) / 2)) (fin (1 - A))).opts.mu (fin (2 - A)) && lt (FloatOps.abs (new.fval - fin (1 / 2)))
        ((demoEnv 1 (fin ((A - 1) / 2)) (fin (1 - A))).opts.fatol + (demoEnv 1 (fin ((A - 1) / 2)) (fin (1 - A))).opts.frtol * FloatOps.abs (fin (1 / 2)))) = true
      rw [hnv, e1, e2, e4]
      norm_num [abs_of_neg, abs_of_pos]
      exact ⟨by linarith, by rw [abs_lt]; constructor <;> linarith⟩
    rw [hcv] at h1
    exact h1
  obtain ⟨a, b, c, e, hpc⟩ : ∃ a b c e, postCheck (srqEnv A) pre step new =
      { afterEval pre step (.ok new) with
        trRatio := r, delta := dl, iterSinceTr := it, nIntermediate := ni, exitflag := ef, converged := cv,
        xMin := a, xMinId := b, fvalMin := c, gradMin := e } := by
    unfold postCheck
    rw [hcv, hrs]
    obtain ⟨a, b, c, e, h⟩ := trackMinimum_frame new
      { afterEval pre step (.ok new) with
        trRatio := r, delta := dl, iterSinceTr := it, nIntermediate := ni, exitflag := ef, converged := cv }
    exact ⟨a, b, c, e, h⟩
  have hib : inBounds (srqEnv A).lb (srqEnv A).ub new.x = true := by
    rw [← hnew]; exact inBounds_real _ _ _ (demo_box 1 (fin ((A - 1) / 2)) (fin (1 - A)) 0)
  have hup : ∃ st4, update (srqEnv A) step new (srqFirst A) (postCheck (srqEnv A) pre step new) = .ok st4 ∧ st4.fval = fin ((A - 1) / 2) ∧ st4.grad = v1 (1 - A) ∧
      st4.hess = (((IterApprox.new .sr1).initMat none).update (v1 (-1)) (v1 (-A))).getMat ∧ st4.evals = { arg := trialPoint pre step, out := .ok new } :: pre.evals ∧
      st4.converged = true := by
    have hpp : (postCheck (srqEnv A) pre step new).happ = some srqInit := by rw [hpc]; exact hhap'
    have hpg : (postCheck (srqEnv A) pre step new).grad = v1 1 := by rw [hpc]; exact hgr'
    have hs : vadd (v1 (-1)) (v1 0) = v1 (-1) := by apply v1_eq; simp [vadd, v1]
    have hy : vsub new.grad (v1 1) = v1 (-A) := by
      rw [← hnew]; apply v1_eq; norm_num [vsub, v1, demoTrial]
    have hu : updateHapp (postCheck (srqEnv A) pre step new) srqInit step new (srqFirst A) =
        .ok (.iter (((IterApprox.new .sr1).initMat none).update (v1 (-1)) (v1 (-A)))) := by
      simp only [updateHapp, srqInit, h2, h3, hpg, hs, hy]
    unfold update
    simp only [hpp, hu, checkInBounds, hib, if_true]
    refine ⟨_, rfl, ?_, ?_, ?_, ?_, ?_⟩
    · rw [← hnew]; rfl
    · rw [← hnew]; rfl
    · rfl
    · simp only [makeNonDegenerate]; rw [hpc]; rfl
    · simp only [makeNonDegenerate]; rw [hpc]; exact hcvt
  obtain ⟨st4, hup1, hup2, hup3, hup4, hup5, hup6⟩ := hup
  have hit := iterate_accept (srqEnv A) pre st4 (srqFirst A) step new hhist
    (by rw [← hpre]; exact hfin) (by rw [← hpre]; exact htr) hout hnf
    hrad hup1
  have hpre' : ({ (srqHead A) with ticks := (srqHead A).ticks + 1 } : St Num 1) = pre := by rw [← hpre, hhd]; rfl
  have hnx : new.x = v1 0 := by rw [← hnew]; rfl
  refine ⟨step, new, st4, new, ⟨⟨?_, ?_, ?_, ?_, ?_⟩, hup2, hup4, ?_, ?_, hnx, hup3, ?_, ?_⟩, hup6⟩
  · rw [hcont', hpre']
  · rw [hpre']; exact hit
  · rw [hhd]; exact htr
  · rw [hup5, hev', ← hev, ← hpre']; rfl
  · rw [hnx, ← htp]; rw [hhd]; rfl
  · rw [hhd]; exact hf
  · rw [hhd]
  · rw [hhd]; exact hgr
  · rw [hhd]; exact hx


end
end Fides
