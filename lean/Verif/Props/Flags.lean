import Verif.Props.Run

/-!
# Exit flags, convergence, failures and the trust radius, for any arithmetic satisfying `LawfulFloat`
-/

set_option linter.unusedSectionVars false

namespace Fides
open Spec
variable {F : Type} [FloatOps F] [LawfulFloat F] {n : ℕ}
variable (E : Env F n) (x0 : Vec F n) (startId : String) (hess0 : Hess0 F) (st0 : St F n)

/-- a run that returned with `converged` set: its last pass -/
theorem converged_last (fuel : ℕ) (st' : St F n) (h : minimize E fuel x0 startId hess0 st0 = .ok st')
    (hc : st'.converged = true) :
    ∃ k prev cur step new next cur' f, LoopHead E x0 startId hess0 st0 k prev cur ∧ Pass E prev cur step new next cur' ∧
      st' = { next with file := f } ∧ next.converged = true := by
  obtain ⟨k, st1, cur, st2, f, hk, hh, hcc, rfl⟩ := run_end E x0 startId hess0 st0 fuel st' h
  rcases checkContinue_false E st1 st2 hcc with ⟨hcv, rfl⟩ | ⟨hcv, _, rfl⟩ | ⟨hcv, _, _, rfl⟩ | ⟨hcv, _, _, rfl⟩
  · cases k with
    | zero =>
      have := loopHead_start_converged E x0 startId hess0 st0 st2 cur hh
      rw [this] at hcv; cases hcv
    | succ k =>
      obtain ⟨prev, cur0, step, new, hhp, hpass⟩ := loopHead_pass E x0 startId hess0 st0 k st2 cur hh
      exact ⟨k, prev, cur0, step, new, st2, cur, f, hhp, hpass, rfl, hcv⟩
  all_goals
    have hc' : st1.converged = true := hc
    rw [hcv] at hc'; cases hc'

omit [LawfulFloat F] in
theorem radius_frame (prev : St F n) (step : Step F n) (new : Funout F n) :
    (radiusStep E prev step new).2.fval = prev.fval ∧ (radiusStep E prev step new).2.iteration = prev.iteration + 1 ∧
      (radiusStep E prev step new).2.exitflag = prev.exitflag := by
  obtain ⟨r, d, i, m, h⟩ := updateTrRadius_frame E new step (trInput E (preIter prev)).dv (afterEval prev step (.ok new))
  unfold radiusStep
  rw [h]
  exact ⟨rfl, rfl, rfl⟩

/-- the documented meaning of an exit flag `flag` of a run that returned normally in state `st'` -/
def FlagTrue (flag : ExitFlag) (st' : St F n) : Prop :=
  match flag with
  | .maxiter => E.opts.maxiter ≤ (st'.iteration : Int)
  | .maxtime =>
      let elapsed := E.clock (st'.ticks - 1) - st'.starttime
      lt (E.opts.maxtime - elapsed) (elapsed / lit ((if st'.iteration = 0 then 1 else st'.iteration : Nat) : ℚ)) = true
  | .deltaTooSmall => lt st'.delta spacing1 = true
  | .ftol => ∃ k prev cur step new cur' next f, LoopHead E x0 startId hess0 st0 k prev cur ∧
      Pass E prev cur step new next cur' ∧ st' = { next with file := f } ∧ lt E.opts.mu st'.trRatio = true ∧
      lt (FloatOps.abs (new.fval - prev.fval)) (E.opts.fatol + E.opts.frtol * FloatOps.abs prev.fval) = true
  | .xtol => ∃ k prev cur step new cur' next f, LoopHead E x0 startId hess0 st0 k prev cur ∧
      Pass E prev cur step new next cur' ∧ st' = { next with file := f } ∧ 1 < st'.iteration ∧
      lt (stepLength step) E.opts.xtol = true
  | .gtol => ∃ k prev cur step new cur' next f, LoopHead E x0 startId hess0 st0 k prev cur ∧
      Pass E prev cur step new next cur' ∧ st' = { next with file := f } ∧
      (le (norm new.grad) E.opts.gatol = true ∨ le (norm new.grad) (E.opts.grtol * FloatOps.abs prev.fval) = true)
  | _ => False

omit [LawfulFloat F] in
theorem flagTrue_of (flag : ExitFlag) (s : St F n) (h : s.exitflag = flag) (hF : FlagTrue E x0 startId hess0 st0 flag s) :
    FlagTrue E x0 startId hess0 st0 s.exitflag s := by
  rw [h]; exact hF

/-- C10: after a normal return the exit flag states the true reason: MAXITER only if the iteration count reached maxiter,
MAXTIME only if the remaining time was below the average iteration time at the last look at the clock,
DELTA_TOO_SMALL only if the radius is below machine precision, FTOL/XTOL/GTOL only if the corresponding test held for
the trial point `new` of the last pass. -/
theorem C10_flag (fuel : ℕ) (st' : St F n) (h : minimize E fuel x0 startId hess0 st0 = .ok st') :
    FlagTrue E x0 startId hess0 st0 st'.exitflag st' := by
  cases hcv : st'.converged with
  | true =>
    obtain ⟨k, prev, cur, step, new, next, cur', f, hhp, hpass, rfl, hc⟩ :=
      converged_last E x0 startId hess0 st0 fuel st' h hcv
    have hp := pass_facts E _ _ _ _ _ _ hpass
    have hfr := radius_frame E prev step new
    have hcc := checkConvergence_cases E step new (radiusStep E prev step new).2
    rw [hfr.1, hfr.2.1, ← hp.ratio] at hcc
    have hef := hp.exitflag
    have hcv' := hp.converged
    rcases hcc with ⟨h1, h2, h3⟩ | ⟨h1, h2, h3⟩ | ⟨h1, h3⟩ | h3
    all_goals rw [h3] at hef hcv'
    · refine flagTrue_of E x0 startId hess0 st0 .ftol _ hef ?_
      exact ⟨k, prev, cur, step, new, cur', next, f, hhp, hpass, rfl, h1, h2⟩
    · refine flagTrue_of E x0 startId hess0 st0 .xtol _ hef ?_
      refine ⟨k, prev, cur, step, new, cur', next, f, hhp, hpass, rfl, ?_, h2⟩
      show 1 < next.iteration
      rw [hp.iteration]; exact h1
    · refine flagTrue_of E x0 startId hess0 st0 .gtol _ hef ?_
      exact ⟨k, prev, cur, step, new, cur', next, f, hhp, hpass, rfl, h1⟩
    · rw [hc] at hcv'; simp at hcv'
  | false =>
    obtain ⟨k, st1, cur, st2, f, hk, hh, hcc, rfl⟩ := run_end E x0 startId hess0 st0 fuel st' h
    rcases checkContinue_false E st1 st2 hcc with ⟨h1, rfl⟩ | ⟨_, h1, rfl⟩ | ⟨_, _, h1, rfl⟩ | ⟨_, _, h1, rfl⟩
    · have : st2.converged = false := hcv
      rw [h1] at this; cases this
    · exact h1
    · exact h1
    · exact h1

/-- the hypothesis is met by a converged run that accepted a step -/
example : ∃ st', minimize (demoEnv (1 / 100000000) (Num.fin 0) (Num.fin 0)) 1 (v1 1) "run" .hessStr demoSt0 = .ok st' := ⟨_, demo_ok.choose_spec.1⟩

/-- C11: after a normal return the flag is positive if `converged` and negative otherwise; it is never DID_NOT_RUN. -/
theorem C11_sign (fuel : ℕ) (st' : St F n) (h : minimize E fuel x0 startId hess0 st0 = .ok st') :
    st'.exitflag ≠ .didNotRun ∧ (st'.converged = true ↔ 0 < st'.exitflag.toInt) ∧
      (st'.converged = false ↔ st'.exitflag.toInt < 0) := by
  cases hcv : st'.converged with
  | true =>
    obtain ⟨k, prev, cur, step, new, next, cur', f, hhp, hpass, rfl, hc⟩ :=
      converged_last E x0 startId hess0 st0 fuel st' h hcv
    have hp := pass_facts E _ _ _ _ _ _ hpass
    have hcc := checkConvergence_cases E step new (radiusStep E prev step new).2
    have hef := hp.exitflag
    have hcv' := hp.converged
    rcases hcc with ⟨h1, h2, h3⟩ | ⟨h1, h2, h3⟩ | ⟨h1, h3⟩ | h3
    all_goals rw [h3] at hef hcv'
    · have : ({ next with file := f } : St F n).exitflag = .ftol := hef
      rw [this]; simp [ExitFlag.toInt]
    · have : ({ next with file := f } : St F n).exitflag = .xtol := hef
      rw [this]; simp [ExitFlag.toInt]
    · have : ({ next with file := f } : St F n).exitflag = .gtol := hef
      rw [this]; simp [ExitFlag.toInt]
    · rw [hc] at hcv'; simp at hcv'
  | false =>
    obtain ⟨k, st1, cur, st2, f, hk, hh, hcc, rfl⟩ := run_end E x0 startId hess0 st0 fuel st' h
    rcases checkContinue_false E st1 st2 hcc with ⟨h1, rfl⟩ | ⟨_, h1, rfl⟩ | ⟨_, _, h1, rfl⟩ | ⟨_, _, h1, rfl⟩
    · have : st2.converged = false := hcv
      rw [h1] at this; cases this
    all_goals simp [ExitFlag.toInt]

/-- the hypothesis is met by a converged run that accepted a step -/
example : ∃ st', minimize (demoEnv (1 / 100000000) (Num.fin 0) (Num.fin 0)) 1 (v1 1) "run" .hessStr demoSt0 = .ok st' := ⟨_, demo_ok.choose_spec.1⟩

/-- C12 (partial): if the run ends with GTOL and its last step was accepted, then the returned gradient satisfies the
absolute test, or the relative test with the *previous* value in place of the returned one.  Missing from the full
claim: the code applies the test to the trial point of the last pass even when that step is rejected, so the claim is
false in general (`C12_counterexample`). -/
theorem C12_gtol_partial (fuel : ℕ) (st' : St F n) (h : minimize E fuel x0 startId hess0 st0 = .ok st')
    (hg : st'.exitflag = .gtol) :
    ∃ k prev cur step new cur' next f, LoopHead E x0 startId hess0 st0 k prev cur ∧ Pass E prev cur step new next cur' ∧
      st' = { next with file := f } ∧
      (cur' = new → st'.grad = new.grad ∧ (le (norm st'.grad) E.opts.gatol = true ∨
        le (norm st'.grad) (E.opts.grtol * FloatOps.abs prev.fval) = true)) := by
  have hF := C10_flag E x0 startId hess0 st0 fuel st' h
  unfold FlagTrue at hF
  rw [hg] at hF
  obtain ⟨k, prev, cur, step, new, cur', next, f, hhp, hpass, rfl, htest⟩ := hF
  refine ⟨k, prev, cur, step, new, cur', next, f, hhp, hpass, rfl, fun hc => ?_⟩
  have hgr : next.grad = new.grad := by
    have hi := headInv E x0 startId hess0 st0 (k + 1) next cur' (.next k prev _ next cur cur' hhp hpass.continues hpass.body)
    rw [hi.grad, hc]
  refine ⟨hgr, ?_⟩
  show le (norm next.grad) _ = true ∨ le (norm next.grad) _ = true
  rw [hgr]; exact htest

/-- C12 is false in general: in this run (default options, objective with value 1/2, gradient 1 at the start and value 5,
gradient 0 at the trial point) the only trial point is rejected, but the run stops with GTOL and returns the starting point
whose gradient is 1. -/
theorem C12_counterexample : ∃ (E : Env Num 1) (st' : St Num 1), E.opts = resolveOpts [] ∧
    minimize E 1 (v1 1) "run" .hessStr demoSt0 = .ok st' ∧ st'.exitflag = .gtol ∧ st'.x = v1 1 ∧ st'.grad = v1 1 ∧
      st'.fval = Num.fin (1 / 2) ∧ le (norm st'.grad) E.opts.gatol = false ∧
      le (norm st'.grad) (E.opts.grtol * FloatOps.abs st'.fval) = false := by
  obtain ⟨st', h, h1, h2, h3, _, h4, _⟩ := demo_run_gen (1 / 100000000) 5 0 .gtol
    (demo_gtol _ _ _ (by norm_num) (by norm_num [abs_of_pos])) demoSt0 rfl 0
  obtain ⟨hx, hf, hg⟩ := h4 (by norm_num)
  have hn : norm (v1 1) = Num.fin 1 := by simp [v1, Num.rnorm, rdot_one]
  refine ⟨_, st', demo_default (Num.fin 5) (Num.fin 0), h, h1, hx, hg, hf, ?_, ?_⟩
  · rw [demo_default, demo_opts, hg, hn]; norm_num
  · rw [demo_default, demo_opts, hg, hn, hf]; norm_num

/-- C13: with `mu ≥ 0`, a run that ends with FTOL accepted its last step; the returned value is that of the last trial
point, differs from the previous value by less than the tolerance, and is smaller. -/
theorem C13_ftol (hmu : le (lit 0) E.opts.mu = true) (fuel : ℕ) (st' : St F n)
    (h : minimize E fuel x0 startId hess0 st0 = .ok st') (hg : st'.exitflag = .ftol) :
    ∃ k prev cur step new next f, LoopHead E x0 startId hess0 st0 k prev cur ∧ Pass E prev cur step new next new ∧
      st' = { next with file := f } ∧ st'.fval = new.fval ∧ lt st'.fval prev.fval = true ∧
      lt (FloatOps.abs (st'.fval - prev.fval)) (E.opts.fatol + E.opts.frtol * FloatOps.abs prev.fval) = true := by
  have hF := C10_flag E x0 startId hess0 st0 fuel st' h
  unfold FlagTrue at hF
  rw [hg] at hF
  obtain ⟨k, prev, cur, step, new, cur', next, f, hhp, hpass, rfl, h1, h2⟩ := hF
  have hp := pass_facts E _ _ _ _ _ _ hpass
  have hpos : lt (lit 0) (radiusStep E prev step new).2.trRatio = true := by
    rw [← hp.ratio]; exact lt_of_le_of_lt' hmu h1
  have hacc : (radiusStep E prev step new).1 = true := by
    revert hpos
    unfold radiusStep
    rcases updateTrRadius_cases E new step (trInput E (preIter prev)).dv (afterEval prev step (.ok new)) with
      ⟨_, h'⟩ | ⟨hf, r, hr, ⟨_, _, h'⟩ | ⟨_, _, h'⟩ | ⟨_, _, m, h'⟩⟩
    all_goals rw [h']
    · intro hc
      have := (LawfulFloat.lt_iff _ _).mp hc
      simp [LawfulFloat.lit_self] at this
    all_goals exact fun hc => hc
  rcases hp.cases with ⟨_, rfl, _, _, hfv, _⟩ | ⟨hrej, _⟩
  · refine ⟨k, prev, cur, step, cur', next, f, hhp, hpass, rfl, hfv, ?_, ?_⟩
    · show lt next.fval _ = true
      rw [hfv]; exact (accepted_lt E prev step cur' hacc hp.finite1).1
    · show lt (FloatOps.abs (next.fval - _)) _ = true
      rw [hfv]; exact h2
  · rw [hacc] at hrej; cases hrej

/-- the hypotheses are met by a run with `fatol = 1` -/
example : ∃ st', minimize (demoEnv 1 (Num.fin 0) (Num.fin 0)) 1 (v1 1) "run" .hessStr demoSt0 = .ok st' ∧ st'.exitflag = .ftol ∧
    le (lit 0) (demoEnv 1 (Num.fin 0) (Num.fin 0)).opts.mu = true := by
  obtain ⟨st', h1, h2, _, h4⟩ := demo_ok_ftol
  exact ⟨st', h1, h2, h4⟩

/-- C14: if the objective returns a non-finite value at the trial point, a completed pass rejects the step, keeps
point, value, gradient, Hessian, approximation and recorded minimum, and sets the radius to the smaller of `gamma1 * delta` and
`‖step‖ / 4` (`np.nanmin`). -/
theorem C14_nonfinite (prev next : St F n) (cur cur' new : Funout F n) (step : Step F n)
    (h : Pass E prev cur step new next cur') (hnf : isFinite new.fval = false) :
    cur' = cur ∧ next.x = prev.x ∧ next.fval = prev.fval ∧ next.grad = prev.grad ∧ next.hess = prev.hess ∧
      next.happ = prev.happ ∧ next.fvalMin = prev.fvalMin ∧ next.gradMin = prev.gradMin ∧ next.xMin = prev.xMin ∧
      next.delta = nanMin2 (prev.delta * E.opts.gamma1) (stepLength step / lit 4) := by
  have hp := pass_facts E prev cur step new next cur' h
  have hr : radiusStep E prev step new = (false, { afterEval prev step (.ok new) with
      trRatio := lit 0, delta := shrunkDelta E prev.delta step, iterSinceTr := 0 }) := by
    rcases updateTrRadius_cases E new step (trInput E (preIter prev)).dv (afterEval prev step (.ok new)) with
      ⟨_, h'⟩ | ⟨hf, _⟩
    · exact h'
    · rw [hnf] at hf; cases hf
  rcases hp.cases with ⟨hacc, _⟩ | ⟨_, h1, h2, h3, h4, h5, h6⟩
  · rw [hr] at hacc; cases hacc
  · refine ⟨h1, h2, h3, h4, h5, h6, ?_⟩
    have hd := hp.delta
    rw [hr] at hd
    obtain ⟨step', new', hist, hfin0, htr, hout, hnx, hnxi, hfin, hcase⟩ := iterate_ok E _ next cur cur' h.body
    have hs : step' = step := by
      have h1 : E.tr prev.proposals (trInput E (preIter { prev with ticks := prev.ticks + 1 })) = .ok step' := htr
      have h2 : E.tr prev.proposals (trInput E (preIter { prev with ticks := prev.ticks + 1 })) = .ok step := h.proposal
      rw [h2] at h1
      cases h1; rfl
    subst hs
    have hn : new' = new := by
      obtain ⟨r, d, i, m, ef, c, mx, mxi, mf, mg, hpf⟩ := postCheck_frame E { prev with ticks := prev.ticks + 1 } step' new'
      have hev : next.evals = { arg := trialPoint prev step', out := .ok new' } :: prev.evals := by
        rcases hcase with ⟨hacc, rfl, st4, hu, -, rfl⟩ | ⟨hacc, rfl, -, rfl⟩
        · obtain ⟨hbd, happ, hess, hhap, rfl⟩ := update_ok E step' _ cur _ st4 hu
          show (postCheck E _ step' _).evals = _
          rw [hpf]; rfl
        · show (postCheck E _ step' _).evals = _
          rw [hpf]; rfl
      have h1 := h.evaluated
      rw [hev] at h1
      simp only [List.cons.injEq, EvalRec.mk.injEq, Except.ok.injEq, and_true] at h1
      exact h1.2
    subst hn
    have hpost : postCheck E { prev with ticks := prev.ticks + 1 } step' new' =
        checkConvergence E step' new' (radiusStep E { prev with ticks := prev.ticks + 1 } step' new').2 := by
      unfold postCheck trackMinimum
      rw [if_neg (by simp [hnf])]
    rw [radiusStep_ticks, hr] at hcase
    rcases hcase with ⟨hacc, _⟩ | ⟨_, _, _, rfl⟩
    · cases hacc
    · rw [hpost, radiusStep_ticks, hr]
      obtain ⟨ef, c, hcf⟩ := checkConvergence_frame E step' new'
        { afterEval prev step' (.ok new') with
          trRatio := lit 0, delta := shrunkDelta E prev.delta step', iterSinceTr := 0, ticks := prev.ticks + 1 }
      simp only
      rw [hcf]
      exact ⟨rfl, rfl, rfl, rfl⟩

/-- the hypotheses are met by a pass with trial value NaN -/
example : ∃ prev cur step new next cur', Pass (demoEnv (1 / 100000000) Num.nan (Num.fin 0)) prev cur step new next cur' ∧
    isFinite new.fval = false := demo_pass_nan

/-- C15: a finite value with a non-finite gradient or Hessian entry at the trial point makes `minimize` raise RuntimeError
with flag NOT_FINITE in that pass (shown for the loop body, from any state with finite current data). -/
theorem C15_derivatives (st : St F n) (cur : Funout F n) (step : Step F n) (new : Funout F n)
    (hcur : allFinite st.fval st.grad (some st.hess) = true)
    (hstep : E.tr st.proposals (trInput E { st with iteration := st.iteration + 1, deltaIter := st.delta }) = .ok step)
    (hout : (evaluate E (vadd (vadd st.x step.s) step.s0) st.nextId
      { st with iteration := st.iteration + 1, deltaIter := st.delta, proposals := st.proposals + 1,
                nextId := st.nextId + 1 }).1 = .ok new)
    (hval : isFinite new.fval = true) (hnf : ¬ FiniteEval new) :
    ∃ st', iterate E st cur = .error (.runtimeError, st') ∧ st'.exitflag = .notFinite ∧ st'.x = st.x ∧ st'.fval = st.fval ∧
      st'.fvalMin = st.fvalMin := by
  have hnf' : allFinite new.fval new.grad new.hess = false := by
    rw [finiteEval_iff] at hnf; simpa using hnf
  cases hi : iterate E st cur with
  | ok r =>
    exfalso
    obtain ⟨step', new', hist, _, htr, hout', _, _, hfin, _⟩ := iterate_ok E st r.1 cur r.2 hi
    have h1 : E.tr st.proposals (trInput E { st with iteration := st.iteration + 1, deltaIter := st.delta }) = .ok step' := htr
    rw [hstep] at h1; cases h1
    have h2 : (evaluate E (vadd (vadd st.x step.s) step.s0) st.nextId
      { st with iteration := st.iteration + 1, deltaIter := st.delta, proposals := st.proposals + 1,
                nextId := st.nextId + 1 }).1 = .ok new' := hout'
    rw [hout] at h2; cases h2
    rw [hfin hval] at hnf'; cases hnf'
  | error r =>
    obtain ⟨e, st'⟩ := r
    rcases iterate_error E st st' cur e hi with ⟨h, _⟩ | ⟨_, ⟨h, _⟩ | ⟨step', htr, h⟩⟩
    · rw [hcur] at h; cases h
    · have h1 : E.tr st.proposals (trInput E { st with iteration := st.iteration + 1, deltaIter := st.delta }) = .error e := h
      rw [hstep] at h1; cases h1
    · have h1 : E.tr st.proposals (trInput E { st with iteration := st.iteration + 1, deltaIter := st.delta }) = .ok step' := htr
      rw [hstep] at h1; cases h1
      have h2 : trialOut E st step = .ok new := hout
      rcases h with ⟨h, _⟩ | ⟨new', hn, _, _, h⟩
      · rw [h2] at h; cases h
      · rw [h2] at hn; cases hn
        rcases h with ⟨_, _, rfl, rfl⟩ | ⟨h, _⟩
        · exact ⟨_, rfl, rfl, rfl, rfl, rfl⟩
        · rw [h hval] at hnf'; cases hnf'

/-- the hypotheses are met: trial value 0 with gradient NaN -/
example : ∃ (st : St Num 1) (step : Step Num 1) (new : Funout Num 1), allFinite st.fval st.grad (some st.hess) = true ∧
    (demoEnv (1 / 100000000) (Num.fin 0) Num.nan).tr st.proposals (trInput (demoEnv (1 / 100000000) (Num.fin 0) Num.nan)
      { st with iteration := st.iteration + 1, deltaIter := st.delta }) = .ok step ∧
    (evaluate (demoEnv (1 / 100000000) (Num.fin 0) Num.nan) (vadd (vadd st.x step.s) step.s0) st.nextId
      { st with iteration := st.iteration + 1, deltaIter := st.delta, proposals := st.proposals + 1,
                nextId := st.nextId + 1 }).1 = .ok new ∧
    isFinite new.fval = true ∧ ¬ FiniteEval new := by
  obtain ⟨step, hstep⟩ := demo_step
  obtain ⟨htr, h2, h3, _⟩ := hstep (1 / 100000000) (Num.fin 0) Num.nan demoSt0
  refine ⟨demoPre (1 / 100000000) (Num.fin 0) Num.nan demoSt0, step,
    demoTrial (Num.fin 0) Num.nan (demoHead (1 / 100000000) (Num.fin 0) Num.nan demoSt0).nextId, demo_finite _ _ _ _, htr, ?_, rfl, fun h => ?_⟩
  · exact demo_out (1 / 100000000) (Num.fin 0) Num.nan demoSt0 step h2 h3
  have := h.2.1 0
  cases this

/-- C15: a first evaluation that is not finite throughout (value, gradient, Hessian when returned) makes the start raise
RuntimeError with flag NOT_FINITE, if nothing else is wrong with it. -/
theorem C15_first (st : St F n) (raw : RawOut F) (happ : Option (Happ F n)) (fo : Funout F n)
    (hraw : funEval E.nargout E.resfun (E.obj st.evals.length st.x) = .ok raw)
    (hhapp : initialHapp st.happ hess0 raw = .ok happ) (hdim : checkdims n raw = .ok ())
    (hty : raw.typed st.x st.xId = some fo) (hnf : ¬ FiniteEval fo) :
    ∃ st', setup E hess0 st = .error (.runtimeError, st') ∧ st'.exitflag = .notFinite := by
  have hnf' : allFinite fo.fval fo.grad fo.hess = false := by
    rw [finiteEval_iff] at hnf; simpa using hnf
  cases hs : setup E hess0 st with
  | ok r =>
    obtain ⟨raw', happ', h1, h2, h3, h4, _, _, h5, _⟩ := setup_ok E hess0 st r.1 r.2 hs
    rw [hraw] at h1; cases h1
    rw [hty] at h4; cases h4
    rw [h5] at hnf'; cases hnf'
  | error r =>
    refine ⟨{ setupState st fo happ with exitflag := .notFinite }, ?_, rfl⟩
    rw [← hs]
    unfold setup
    simp only [hraw, hhapp, hdim, hty]
    simp only [checkFinite, hnf', Bool.false_eq_true, if_false]
    rfl

/-- the hypotheses are met: a first evaluation with value NaN -/
example : let E : Env Num 1 := { demoEnv (1 / 100000000) (Num.fin 0) (Num.fin 0) with
      obj := fun _ _ => .tuple [.scalar Num.nan, .arr [1] [Num.fin 1], .arr [1, 1] [Num.fin 1]] }
    ∃ raw happ fo, funEval E.nargout E.resfun (E.obj demoSt0.evals.length demoSt0.x) = .ok raw ∧
      initialHapp demoSt0.happ .hessStr raw = .ok happ ∧ checkdims 1 raw = .ok () ∧
      raw.typed demoSt0.x demoSt0.xId = some fo ∧ ¬ FiniteEval fo := by
  refine ⟨⟨.scalar Num.nan, .arr [1] [Num.fin 1], .arr [1, 1] [Num.fin 1], .none, .none⟩, none, _, by simp [funEval, demoEnv], rfl, by simp [checkdims], typed_one _ _ _ _ _, fun h => ?_⟩
  have := h.1
  cases this

/-- C15: hence at every loop head, and after every normal return, current value and gradient are finite, as is every
part of the evaluation they come from. -/
theorem C15_finite (k : ℕ) (st : St F n) (cur : Funout F n) (h : LoopHead E x0 startId hess0 st0 k st cur) :
    FiniteEval cur ∧ isFinite st.fval = true ∧ ∀ i, isFinite (st.grad i) = true := by
  have hi := headInv E x0 startId hess0 st0 k st cur h
  have hf := hi.finite
  rw [← finiteEval_iff] at hf
  rw [hi.fval, hi.grad]
  exact ⟨hf, hf.1, hf.2.1⟩

/-- the hypothesis is met -/
example : ∃ st cur, LoopHead (demoEnv (1 / 100000000) (Num.fin 0) (Num.fin 0)) (v1 1) "run" .hessStr demoSt0 0 st cur := demo_head _ _ _

theorem C15_returned (fuel : ℕ) (st' : St F n) (h : minimize E fuel x0 startId hess0 st0 = .ok st') :
    isFinite st'.fval = true ∧ ∀ i, isFinite (st'.grad i) = true := by
  obtain ⟨k, st1, cur, ef, t, f, hk, hh, rfl⟩ := run_end_fields E x0 startId hess0 st0 fuel st' h
  exact (C15_finite E x0 startId hess0 st0 k st1 cur hh).2

/-- the hypothesis is met by a converged run that accepted a step -/
example : ∃ st', minimize (demoEnv (1 / 100000000) (Num.fin 0) (Num.fin 0)) 1 (v1 1) "run" .hessStr demoSt0 = .ok st' := ⟨_, demo_ok.choose_spec.1⟩

/-- C16: the radius rule.  With `r` the ratio recorded for the pass, `len = ‖ss + ss0‖` and "interior" meaning `len < 0.9 delta`:
a finite trial value with `r ≥ eta` and a step that is not interior multiplies the radius by `gamma2`; otherwise a
non-finite trial value or `r ≤ mu` sets it to `nanmin(gamma1 * delta, len / 4)`; otherwise it is unchanged. -/
theorem C16_rule (prev next : St F n) (cur cur' new : Funout F n) (step : Step F n)
    (h : Pass E prev cur step new next cur') :
    let interior := lt (stepLength step) (prev.delta * lit (9 / 10))
    let grow := isFinite new.fval && (le E.opts.eta next.trRatio && !interior)
    let shrink := !isFinite new.fval || le next.trRatio E.opts.mu
    next.delta = if grow then E.opts.gamma2 * prev.delta
      else if shrink then nanMin2 (prev.delta * E.opts.gamma1) (stepLength step / lit 4) else prev.delta := by
  have hp := pass_facts E prev cur step new next cur' h
  rw [hp.delta, hp.ratio]
  unfold radiusStep
  rcases updateTrRadius_cases E new step (trInput E (preIter prev)).dv (afterEval prev step (.ok new)) with
    ⟨hf, h'⟩ | ⟨hf, r, hr, ⟨h1, h2, h'⟩ | ⟨h1, h2, h'⟩ | ⟨h1, h2, m, h'⟩⟩
  · rw [h']
    simp only [hf, Bool.false_and, Bool.false_eq_true, if_false, Bool.not_false, Bool.true_or, if_true]
    rfl
  · have h2' : lt (stepLength step) (prev.delta * lit (9 / 10)) = false := h2
    rw [h']
    simp only [hf, h1, h2', Bool.not_false, Bool.and_self, if_true]
    rfl
  · have h1' : (le E.opts.eta r && !lt (stepLength step) (prev.delta * lit (9 / 10))) = false := h1
    rw [h']
    simp only [hf, h1', h2, Bool.and_false, Bool.false_eq_true, if_false, Bool.not_true, Bool.or_true, if_true]
    rfl
  · have h1' : (le E.opts.eta r && !lt (stepLength step) (prev.delta * lit (9 / 10))) = false := h1
    rw [h']
    simp only [hf, h1', h2, Bool.and_false, Bool.false_eq_true, if_false, Bool.not_true, Bool.or_self]
    rfl

/-- the hypothesis is met by a pass with an accepted step and by one with a rejected step -/
example : (∃ prev cur step new next cur', Pass (demoEnv (1 / 100000000) (Num.fin 0) (Num.fin 0)) prev cur step new next cur' ∧
      prev.x = v1 1 ∧ next.x = v1 0) ∧
    ∃ prev cur step new next cur', Pass (demoEnv (1 / 100000000) (Num.fin 5) (Num.fin 0)) prev cur step new next cur' ∧
      prev.x = v1 1 ∧ next.x = v1 1 := by
  obtain ⟨p, c, s, w, q, c', h1, -, h3, h4⟩ := demo_pass 0 (by norm_num [abs_of_neg])
  obtain ⟨p', c2, s', w', q', c3, h1', -, h3', h4'⟩ := demo_pass 5 (by norm_num [abs_of_pos])
  norm_num at h4 h4'
  exact ⟨⟨p, c, s, w, q, c', h1, h3, h4⟩, ⟨p', c2, s', w', q', c3, h1', h3', h4'⟩⟩

/-- C19: a pass is started only if the remaining time is not below the average time per iteration so far. -/
theorem C19_time (prev next : St F n) (cur cur' new : Funout F n) (step : Step F n)
    (h : Pass E prev cur step new next cur') :
    let elapsed := E.clock prev.ticks - prev.starttime
    lt (E.opts.maxtime - elapsed) (elapsed / lit ((max 1 prev.iteration : Nat) : ℚ)) = false := by
  have h1 := (checkContinue_true E prev _ h.continues).2.2.2.1
  have : (if prev.iteration = 0 then 1 else prev.iteration) = max 1 prev.iteration := by
    split <;> omega
  rw [this] at h1
  exact h1

/-- the hypothesis is met by a pass with an accepted step and by one with a rejected step -/
example : (∃ prev cur step new next cur', Pass (demoEnv (1 / 100000000) (Num.fin 0) (Num.fin 0)) prev cur step new next cur' ∧
      prev.x = v1 1 ∧ next.x = v1 0) ∧
    ∃ prev cur step new next cur', Pass (demoEnv (1 / 100000000) (Num.fin 5) (Num.fin 0)) prev cur step new next cur' ∧
      prev.x = v1 1 ∧ next.x = v1 1 := by
  obtain ⟨p, c, s, w, q, c', h1, -, h3, h4⟩ := demo_pass 0 (by norm_num [abs_of_neg])
  obtain ⟨p', c2, s', w', q', c3, h1', -, h3', h4'⟩ := demo_pass 5 (by norm_num [abs_of_pos])
  norm_num at h4 h4'
  exact ⟨⟨p, c, s, w, q, c', h1, h3, h4⟩, ⟨p', c2, s', w', q', c3, h1', h3', h4'⟩⟩

/-- C19: the start time is the clock reading at the beginning of the run. -/
theorem C19_start (k : ℕ) (st : St F n) (cur : Funout F n) (h : LoopHead E x0 startId hess0 st0 k st cur) :
    st.starttime = E.clock st0.ticks ∧ st.iteration = k :=
  ⟨(headInv E x0 startId hess0 st0 k st cur h).starttime, (headInv E x0 startId hess0 st0 k st cur h).iteration⟩

/-- the hypothesis is met -/
example : ∃ st cur, LoopHead (demoEnv (1 / 100000000) (Num.fin 0) (Num.fin 0)) (v1 1) "run" .hessStr demoSt0 0 st cur := demo_head _ _ _

end Fides
