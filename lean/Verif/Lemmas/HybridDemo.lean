import Verif.Lemmas.Demo
import Verif.Lemmas.Shift
import Verif.Lemmas.Hessian

/-!
# Two runs with `HybridFixed` on one optimizer

The demo run (see `Demo`) with `HybridFixed(BFGS(), switch_iteration=0)`; the objective returns gradient `-1` at 0.
-/

namespace Fides
open Num Spec

noncomputable section

/-- the surroundings of the runs -/
def hybEnv : Env Num 1 := demoEnv 1 (fin 0) (fin (-1))

/-- the approximation after `_init_mat` -/
def hybInit (sw : Bool) (h : Hybrid Num 1) : Happ Num 1 := .hybridFixed 0 sw (h.initMat none)

/-- the optimizer at the first loop head -/
def hybHead (st0 : St Num 1) (sw : Bool) (h : Hybrid Num 1) : St Num 1 :=
  { setupState (startState hybEnv (v1 1) "run" st0)
      (demoFirst (startState hybEnv (v1 1) "run" st0).xId) (some (hybInit sw h)) with converged := false }

theorem hyb_start (st0 : St Num 1) (sw : Bool) (h : Hybrid Num 1) (hh : st0.happ = some (.hybridFixed 0 sw h)) :
    LoopHead hybEnv (v1 1) "run" (.val .none) st0 0 (hybHead st0 sw h) (demoFirst (startState hybEnv (v1 1) "run" st0).xId) := by
  have hx : (startState hybEnv (v1 1) "run" st0).x = v1 1 := demo_nudge 1 (fin 0) (fin (-1)) 1
  have hb : inBounds hybEnv.lb hybEnv.ub (v1 1) = true := inBounds_real _ _ _ (demo_box 1 (fin 0) (fin (-1)) 1)
  refine LoopHead.start (startState hybEnv (v1 1) "run" st0) _ _ ?_ ?_
  · rw [hx, checkInBounds, if_pos hb]
  · refine setup_forward _ _ _ { fval := .scalar (fin (1 / 2)), grad := .arr [1] [fin 1], hess := .arr [1, 1] [fin 1], res := .none, sres := .none } _ _ ?_ ?_ ?_ ?_ ?_
    · rw [hx]; simp [hybEnv, demoEnv, funEval]
    · have : (startState hybEnv (v1 1) "run" st0).happ = some (.hybridFixed 0 sw h) := hh
      rw [this]; rfl
    · rfl
    · rw [hx, typed_one]; rfl
    · simp [demoFirst, allFinite, vfinite, mfinite, v1]

/-- the head of this run is the head of the plain demo run apart from the approximation -/
theorem hybHead_eq (st0 : St Num 1) (sw : Bool) (h : Hybrid Num 1) :
    hybHead st0 sw h = { demoHead 1 (fin 0) (fin (-1)) st0 with happ := some (hybInit sw h) } := by
  have hm : (hybInit sw h).getMat = fun _ _ => fin 1 := by
    funext i j
    simp [hybInit, Hybrid.initMat, Happ.getMat, meye, Subsingleton.elim i j]
  have hm' : (demoFirst (startState hybEnv (v1 1) "run" st0).xId).hess.getD mzero = fun _ _ => fin 1 := rfl
  unfold hybHead demoHead setupState trackMinimum
  simp only [hybEnv, logStart] at hm' ⊢
  simp only [hm, hm']
  split <;> rfl

/-- what the first accepted step makes of the approximation -/
theorem hyb_update (st : St Num 1) (sw : Bool) (h : Hybrid Num 1) (step : Step Num 1) (k : ℕ) (old : Funout Num 1)
    (hin : h.inner.scheme = .bfgs) (h1 : step.s = v1 (-1)) (h2 : step.s0 = v1 0) (hg : st.grad = v1 1) :
    ∃ h', updateHapp st (hybInit sw h) step (demoTrial (fin 0) (fin (-1)) k) old = .ok (.hybridFixed 0 true h') ∧
      h'.inner.scheme = .bfgs ∧ h'.hess = (fun _ _ => fin (if sw then 2 else 1)) := by
  refine ⟨(h.initMat none).switchedUpdate sw (v1 (-1)) (v1 (-2)) (fun _ _ => fin 1), ?_, ?_, ?_⟩
  · have hs : vadd (v1 (-1)) (v1 0) = v1 (-1) := by apply v1_eq; simp [vadd, v1]
    have hy : vsub (demoTrial (fin 0) (fin (-1)) k).grad (v1 1) = v1 (-2) := by
      apply v1_eq; simp [vsub, v1, demoTrial]; norm_num
    simp only [updateHapp, hybInit, h1, h2, hg, hs, hy]
    simp only [demoTrial, Happ.updateFixed]
    cases sw <;> simp
  · simp [Hybrid.switchedUpdate, Hybrid.initMat, IterApprox.update, IterApprox.initMat, hin, IterScheme.bfgs]
  · cases sw
    · rfl
    · funext i j
      simp [Hybrid.switchedUpdate, Hybrid.initMat, IterApprox.update, IterApprox.initMat, hin, IterScheme.bfgs, IterApprox.getMat,
        IterApprox.computeUpdate]
      rw [show (v1 (-2) : Vec Num 1) = ofV (fun _ => -2) from rfl, show (v1 (-1) : Vec Num 1) = ofV (fun _ => -1) from rfl,
        broyden_fin _ _ _ _ _ (by simp [rdot_one]) (by simp [rdot_one, rmv]) (by intro _; simp [rdot_one]), madd_ofM]
      simp [rbroyden, rdot_one, rmv, Subsingleton.elim i 0, Subsingleton.elim j 0]

theorem updateTrRadius_happ (E : Env Num 1) (fo : Funout Num 1) (step : Step Num 1) (dv : Vec Num 1) (st : St Num 1)
    (hp : Option (Happ Num 1)) : updateTrRadius E fo step dv { st with happ := hp } =
      ((updateTrRadius E fo step dv st).1, { (updateTrRadius E fo step dv st).2 with happ := hp }) := by
  unfold updateTrRadius
  simp only
  cases isFinite fo.fval
  · rfl
  · generalize (if le (-step.qpval) (lit 0) = true then (lit 0 : Num) else _) = r
    simp only [Bool.not_true, Bool.false_eq_true, if_false]
    cases (le E.opts.eta r && !lt (Fides.norm (vadd step.ss step.ss0)) (st.deltaIter * lit (9 / 10)))
    · cases le r E.opts.mu
      · cases (lt E.opts.mu r && lt r E.opts.eta) <;> rfl
      · rfl
    · rfl

/-- a run with `HybridFixed`: the returned Hessian depends on the switch left by earlier runs -/
theorem hyb_run (st0 : St Num 1) (sw : Bool) (h : Hybrid Num 1) (hh : st0.happ = some (.hybridFixed 0 sw h))
    (hin : h.inner.scheme = .bfgs) : ∃ st', minimize hybEnv 1 (v1 1) "run" (.val .none) st0 = .ok st' ∧
      st'.hess = (fun _ _ => fin (if sw then 2 else 1)) ∧ (∃ h', st'.happ = some (.hybridFixed 0 true h') ∧ h'.inner.scheme = .bfgs) := by
  obtain ⟨step, hstep⟩ := demo_step
  obtain ⟨htr, h2, h3, h4, h5, h6⟩ := hstep 1 (fin 0) (fin (-1)) st0
  obtain ⟨hf, hd, hi, hx, hgr, hhap, hid⟩ := demo_frame 1 (fin 0) (fin (-1)) st0
  have hout := demo_out 1 (fin 0) (fin (-1)) st0 step h2 h3
  obtain ⟨hr1, hr2, hr3⟩ := demo_radius 1 0 (-1) st0 step (demoHead 1 (fin 0) (fin (-1)) st0).nextId h4 h5 h6
  have hfin := demo_finite 1 (fin 0) (fin (-1)) st0
  have hhist : hybEnv.opts.history = false := by show (resolveOpts [] : Opts Num).history = _; rw [demo_opts]
  have hcont := demo_continue 1 (fin 0) (fin (-1)) st0
  have hhd := hybHead_eq st0 sw h
  have hcont' : checkContinue hybEnv (hybHead st0 sw h) =
      (true, { demoPre 1 (fin 0) (fin (-1)) st0 with happ := some (hybInit sw h) }) := by
    rw [hhd]
    have : ∀ (E : Env Num 1) (st st' : St Num 1) (hp : Option (Happ Num 1)), checkContinue E st = (true, st') →
        checkContinue E { st with happ := hp } = (true, { st' with happ := hp }) := by
      intro E st st' hp hc
      unfold checkContinue at hc ⊢
      simp only at hc ⊢
      repeat' split at hc
      all_goals cases hc
      all_goals simp_all
    exact this _ _ _ _ hcont
  generalize hpre : ({ demoPre 1 (fin 0) (fin (-1)) st0 with happ := some (hybInit sw h) } : St Num 1) = pre at hcont'
  generalize hnew : demoTrial (fin 0) (fin (-1)) (demoHead 1 (fin 0) (fin (-1)) st0).nextId = new at hout hr1 hr2
  have hnf : allFinite new.fval new.grad new.hess = true := by
    rw [← hnew]; simp [demoTrial, allFinite, vfinite, mfinite]
  have hconv := demo_ftol 1 0 (-1) (by norm_num) (by norm_num [abs_of_neg]) (radiusStep hybEnv pre step new).2 step
    (demoHead 1 (fin 0) (fin (-1)) st0).nextId
  rw [hnew] at hconv
  have hrad : radiusStep hybEnv pre step new = ((radiusStep hybEnv (demoPre 1 (fin 0) (fin (-1)) st0) step new).1,
      { (radiusStep hybEnv (demoPre 1 (fin 0) (fin (-1)) st0) step new).2 with happ := some (hybInit sw h) }) := by
    subst hpre
    obtain ⟨r, dl, it, ni, hfr⟩ := updateTrRadius_frame hybEnv new step
      (trInput hybEnv (preIter (demoPre 1 (fin 0) (fin (-1)) st0))).dv (afterEval (demoPre 1 (fin 0) (fin (-1)) st0) step (.ok new))
    unfold radiusStep
    have hae : afterEval ({ demoPre 1 (fin 0) (fin (-1)) st0 with happ := some (hybInit sw h) } : St Num 1) step (.ok new) =
      { afterEval (demoPre 1 (fin 0) (fin (-1)) st0) step (.ok new) with happ := some (hybInit sw h) } := rfl
    have hti : trInput hybEnv (preIter ({ demoPre 1 (fin 0) (fin (-1)) st0 with happ := some (hybInit sw h) } : St Num 1)) =
      trInput hybEnv (preIter (demoPre 1 (fin 0) (fin (-1)) st0)) := rfl
    rw [hae, hti]
    exact updateTrRadius_happ _ _ _ _ _ _
  obtain ⟨r, dl, it, ni, hfr⟩ := updateTrRadius_frame hybEnv new step
    (trInput hybEnv (preIter (demoPre 1 (fin 0) (fin (-1)) st0))).dv (afterEval (demoPre 1 (fin 0) (fin (-1)) st0) step (.ok new))
  have hrs : (radiusStep hybEnv (demoPre 1 (fin 0) (fin (-1)) st0) step new).2 = _ := hfr
  have hconv' := hconv (by rw [hrad, hrs]; show (demoPre 1 (fin 0) (fin (-1)) st0).iteration + 1 = 1; rw [hi])
    (by rw [hrad, hrs]; exact hf) (by rw [hrad]; exact hr2)
  have hpc : ∃ a b c e, postCheck hybEnv pre step new =
      { afterEval (demoPre 1 (fin 0) (fin (-1)) st0) step (.ok new) with
        happ := some (hybInit sw h), trRatio := r, delta := dl, iterSinceTr := it, nIntermediate := ni, exitflag := .ftol, converged := true,
        xMin := a, xMinId := b, fvalMin := c, gradMin := e } := by
    unfold postCheck
    have : checkConvergence hybEnv step new (radiusStep hybEnv pre step new).2 = _ := hconv'
    rw [this, hrad, hrs]
    obtain ⟨a, b, c, e, h⟩ := trackMinimum_frame new
      { afterEval (demoPre 1 (fin 0) (fin (-1)) st0) step (.ok new) with
        happ := some (hybInit sw h), trRatio := r, delta := dl, iterSinceTr := it, nIntermediate := ni, exitflag := .ftol, converged := true }
    exact ⟨a, b, c, e, h⟩
  obtain ⟨a, b, c, e, hpc⟩ := hpc
  obtain ⟨h', hu1, hu2, hu3⟩ := hyb_update (postCheck hybEnv pre step new) sw h step (demoHead 1 (fin 0) (fin (-1)) st0).nextId
    (demoFirst (startState hybEnv (v1 1) "run" st0).xId) hin h2 h3 (by rw [hpc]; exact hgr)
  rw [hnew] at hu1
  have hib : inBounds hybEnv.lb hybEnv.ub new.x = true := by
    rw [← hnew]; exact inBounds_real _ _ _ (demo_box 1 (fin 0) (fin (-1)) 0)
  have hup : ∃ st4, update hybEnv step new (demoFirst (startState hybEnv (v1 1) "run" st0).xId) (postCheck hybEnv pre step new) = .ok st4 ∧
      st4.happ = some (.hybridFixed 0 true h') ∧ st4.hess = h'.hess ∧ st4.converged = true := by
    have hpp : (postCheck hybEnv pre step new).happ = some (hybInit sw h) := by rw [hpc]
    unfold update
    simp only [hpp, hu1, checkInBounds, hib, if_true]
    refine ⟨_, rfl, rfl, rfl, ?_⟩
    rw [hpc]; rfl
  obtain ⟨st4, hup1, hup2, hup3, hup4⟩ := hup
  have hit := iterate_accept hybEnv pre st4 (demoFirst (startState hybEnv (v1 1) "run" st0).xId) step new hhist
    (by rw [← hpre]; exact hfin) (by rw [← hpre]; exact htr) (by rw [← hpre]; exact hout) hnf
    (by rw [hrad]; exact hr1.trans (by simp)) hup1
  have hl : loop hybEnv 1 (hybHead st0 sw h) (demoFirst (startState hybEnv (v1 1) "run" st0).xId) = .ok st4 := by
    rw [loop_step _ _ _ _ _ _ _ hcont' hit]
    refine loop_stop _ _ _ _ _ ?_
    simp [checkContinue, hup4]
  refine ⟨st4, ?_, by rw [hup3, hu3], h', hup2, hu2⟩
  rw [minimize_of_head _ _ _ _ _ _ _ _ _ (by decide) (hyb_start st0 sw h hh) hl]
  simp [writeHistory, hhist]

end

end Fides
