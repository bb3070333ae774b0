import Verif.Lemmas.HeadInv

/-! Helper lemmas: what one completed pass through the loop body does, and how normal returns end. -/

namespace Fides
open Spec
variable {F : Type} [FloatOps F] {n : ℕ}

/-- everything a completed pass does -/
structure PassFacts (E : Env F n) (prev : St F n) (cur : Funout F n) (step : Step F n) (new : Funout F n) (next : St F n)
    (cur' : Funout F n) : Prop where
  finite0 : allFinite prev.fval prev.grad (some prev.hess) = true
  finite1 : isFinite new.fval = true → allFinite new.fval new.grad new.hess = true
  newId : new.xId = prev.nextId
  delta : next.delta = (radiusStep E prev step new).2.delta
  ratio : next.trRatio = (radiusStep E prev step new).2.trRatio
  deltaIter : next.deltaIter = prev.delta
  sinceTr : next.iterSinceTr = (radiusStep E prev step new).2.iterSinceTr
  interm : next.nIntermediate = (radiusStep E prev step new).2.nIntermediate
  exitflag : next.exitflag = (checkConvergence E step new (radiusStep E prev step new).2).exitflag
  converged : next.converged = (checkConvergence E step new (radiusStep E prev step new).2).converged
  iteration : next.iteration = prev.iteration + 1
  proposals : next.proposals = prev.proposals + 1
  starttime : next.starttime = prev.starttime
  cases : ((radiusStep E prev step new).1 = true ∧ cur' = new ∧ inBounds E.lb E.ub new.x = true ∧
      next.x = nudge E.lb E.ub new.x ∧ next.fval = new.fval ∧ next.grad = new.grad) ∨
    ((radiusStep E prev step new).1 = false ∧ cur' = cur ∧ next.x = prev.x ∧ next.fval = prev.fval ∧
      next.grad = prev.grad ∧ next.hess = prev.hess ∧ next.happ = prev.happ)

theorem radiusStep_ticks (E : Env F n) (st : St F n) (t : ℕ) (step : Step F n) (new : Funout F n) :
    radiusStep E { st with ticks := t } step new =
      ((radiusStep E st step new).1, { (radiusStep E st step new).2 with ticks := t }) := by
  unfold radiusStep
  have h1 : (trInput E (preIter { st with ticks := t })).dv = (trInput E (preIter st)).dv := rfl
  have h2 : afterEval { st with ticks := t } step (.ok new) = { afterEval st step (.ok new) with ticks := t } := rfl
  rw [h1, h2]
  generalize afterEval st step (.ok new) = a
  unfold updateTrRadius
  simp only
  split
  · rfl
  · simp only
    split
    · congr 1
      split
      · rfl
      · split
        · rfl
        · split <;> rfl
    · congr 1
      split
      · rfl
      · split
        · rfl
        · split <;> rfl

theorem checkConvergence_ticks (E : Env F n) (st : St F n) (t : ℕ) (step : Step F n) (new : Funout F n) :
    checkConvergence E step new { st with ticks := t } = { checkConvergence E step new st with ticks := t } := by
  unfold checkConvergence
  simp only
  split
  · rfl
  · split
    · rfl
    · split
      · rfl
      · split <;> rfl

theorem pass_facts (E : Env F n) (prev : St F n) (cur : Funout F n) (step : Step F n) (new : Funout F n) (next : St F n)
    (cur' : Funout F n) (h : Pass E prev cur step new next cur') : PassFacts E prev cur step new next cur' := by
  obtain ⟨step', new', hist, hfin0, htr, hout, hnx, hnxi, hfin, hcase⟩ := iterate_ok E _ next cur cur' h.body
  have hs : step' = step := by
    have h1 : E.tr prev.proposals (trInput E { prev with iteration := prev.iteration + 1, deltaIter := prev.delta,
                                                         ticks := prev.ticks + 1 }) = .ok step' := htr
    rw [h.proposal] at h1
    cases h1; rfl
  subst hs
  obtain ⟨r, d, i, m, ef, c, mx, mxi, mf, mg, hpf⟩ := postCheck_frame E { prev with ticks := prev.ticks + 1 } step' new'
  have hev : next.evals = { arg := trialPoint prev step', out := .ok new' } :: prev.evals := by
    rcases hcase with ⟨hacc, rfl, st4, hu, -, rfl⟩ | ⟨hacc, rfl, -, rfl⟩
    · obtain ⟨hbd, happ, hess, hhap, rfl⟩ := update_ok E step' _ cur _ st4 hu
      show (postCheck E _ step' _).evals = _
      rw [hpf]; rfl
    · show (postCheck E _ step' _).evals = _
      rw [hpf]; rfl
  have hn : new' = new := by
    have h1 := h.evaluated
    rw [hev] at h1
    simp only [List.cons.injEq, EvalRec.mk.injEq, Except.ok.injEq, and_true] at h1
    exact h1.2
  subst hn
  have hpc : ∀ {β : Type} (f : St F n → β), (∀ s : St F n, ∀ x i fv g, f { s with xMin := x, xMinId := i, fvalMin := fv, gradMin := g } = f s) →
      f (postCheck E { prev with ticks := prev.ticks + 1 } step' new') =
      f (checkConvergence E step' new' (radiusStep E { prev with ticks := prev.ticks + 1 } step' new').2) := by
    intro β f hf
    unfold postCheck
    obtain ⟨x, i, fv, g, h3⟩ := trackMinimum_frame new' (checkConvergence E step' new' (radiusStep E { prev with ticks := prev.ticks + 1 } step' new').2)
    rw [h3, hf]
  have hr := radiusStep_ticks E prev (prev.ticks + 1) step' new'
  have hcc := fun s => checkConvergence_ticks E s (prev.ticks + 1) step' new'
  have hconvf := fun {β : Type} (f : St F n → β) (hf : ∀ s : St F n, ∀ ef c, f { s with exitflag := ef, converged := c } = f s) => (by
    obtain ⟨ef, c, h2⟩ := checkConvergence_frame E step' new' (radiusStep E prev step' new').2
    rw [h2, hf] : f (checkConvergence E step' new' (radiusStep E prev step' new').2) = f (radiusStep E prev step' new').2)
  -- fields of the state after the checks
  have e1 : (postCheck E { prev with ticks := prev.ticks + 1 } step' new').delta = (radiusStep E prev step' new').2.delta := by
    rw [hpc (fun s => s.delta) (fun _ _ _ _ _ => rfl), hr]; simp only; rw [hcc]; exact hconvf (fun s => s.delta) (fun _ _ _ => rfl)
  have e2 : (postCheck E { prev with ticks := prev.ticks + 1 } step' new').trRatio = (radiusStep E prev step' new').2.trRatio := by
    rw [hpc (fun s => s.trRatio) (fun _ _ _ _ _ => rfl), hr]; simp only; rw [hcc]; exact hconvf (fun s => s.trRatio) (fun _ _ _ => rfl)
  have e3 : (postCheck E { prev with ticks := prev.ticks + 1 } step' new').iterSinceTr = (radiusStep E prev step' new').2.iterSinceTr := by
    rw [hpc (fun s => s.iterSinceTr) (fun _ _ _ _ _ => rfl), hr]; simp only; rw [hcc]; exact hconvf (fun s => s.iterSinceTr) (fun _ _ _ => rfl)
  have e4 : (postCheck E { prev with ticks := prev.ticks + 1 } step' new').nIntermediate = (radiusStep E prev step' new').2.nIntermediate := by
    rw [hpc (fun s => s.nIntermediate) (fun _ _ _ _ _ => rfl), hr]; simp only; rw [hcc]; exact hconvf (fun s => s.nIntermediate) (fun _ _ _ => rfl)
  have e5 : (postCheck E { prev with ticks := prev.ticks + 1 } step' new').exitflag =
      (checkConvergence E step' new' (radiusStep E prev step' new').2).exitflag := by
    rw [hpc (fun s => s.exitflag) (fun _ _ _ _ _ => rfl), hr]; simp only; rw [hcc]
  have e6 : (postCheck E { prev with ticks := prev.ticks + 1 } step' new').converged =
      (checkConvergence E step' new' (radiusStep E prev step' new').2).converged := by
    rw [hpc (fun s => s.converged) (fun _ _ _ _ _ => rfl), hr]; simp only; rw [hcc]
  have hacc' : (radiusStep E { prev with ticks := prev.ticks + 1 } step' new').1 = (radiusStep E prev step' new').1 := by rw [hr]
  rw [hacc'] at hcase
  rcases hcase with ⟨hacc, rfl, st4, hu, -, rfl⟩ | ⟨hacc, rfl, -, rfl⟩
  · obtain ⟨hbd, happ, hess, hhap, rfl⟩ := update_ok E step' _ cur _ st4 hu
    refine { finite0 := hfin0, finite1 := hfin, newId := hnxi, delta := e1, ratio := e2, deltaIter := ?_, sinceTr := e3,
             interm := e4, exitflag := e5, converged := e6, iteration := ?_, proposals := ?_, starttime := ?_
             cases := Or.inl ⟨hacc, rfl, hbd, rfl, rfl, rfl⟩ }
    · show (postCheck E _ step' _).deltaIter = _; rw [hpf]; rfl
    · show (postCheck E _ step' _).iteration = _; rw [hpf]; rfl
    · show (postCheck E _ step' _).proposals = _; rw [hpf]; rfl
    · show (postCheck E _ step' _).starttime = _; rw [hpf]; rfl
  · refine { finite0 := hfin0, finite1 := hfin, newId := hnxi, delta := e1, ratio := e2, deltaIter := ?_, sinceTr := e3,
             interm := e4, exitflag := e5, converged := e6, iteration := ?_, proposals := ?_, starttime := ?_
             cases := Or.inr ⟨hacc, rfl, ?_, ?_, ?_, ?_, ?_⟩ }
    all_goals
      simp only [hpf]
      rfl

/-- the loop heads of a run are connected by completed passes -/
theorem loopHead_pass (E : Env F n) (x0 : Vec F n) (startId : String) (hess0 : Hess0 F) (st0 : St F n) (k : ℕ)
    (st : St F n) (cur : Funout F n) (h : LoopHead E x0 startId hess0 st0 (k + 1) st cur) :
    ∃ prev cur0 step new, LoopHead E x0 startId hess0 st0 k prev cur0 ∧ Pass E prev cur0 step new st cur := by
  cases h with
  | next _ prev st1 _ cur0 _ hh hc hi =>
    obtain ⟨rfl, _⟩ := checkContinue_true E prev st1 hc
    obtain ⟨step, new, hist, hfin0, htr, hout, hnx, hnxi, hfin, hcase⟩ := iterate_ok E _ st cur0 cur hi
    refine ⟨prev, cur0, step, new, hh, ⟨hc, hi, htr, ?_, hnx⟩⟩
    obtain ⟨r, d, i, m, ef, c, mx, mxi, mf, mg, hpf⟩ := postCheck_frame E { prev with ticks := prev.ticks + 1 } step new
    rcases hcase with ⟨hacc, rfl, st4, hu, -, rfl⟩ | ⟨hacc, rfl, -, rfl⟩
    · obtain ⟨hbd, happ, hess, hhap, rfl⟩ := update_ok E step _ cur0 _ st4 hu
      show (postCheck E _ step _).evals = _
      rw [hpf]; rfl
    · show (postCheck E _ step _).evals = _
      rw [hpf]; rfl

/-- `writeHistory` changes only the file -/
theorem writeHistory_ok (E : Env F n) (st st' : St F n) (h : writeHistory E st = .ok st') :
    ∃ f, st' = { st with file := f } := by
  unfold writeHistory at h
  split at h
  · split at h
    · cases h
    · cases h; exact ⟨_, rfl⟩
  · cases h; exact ⟨st.file, rfl⟩

/-- `check_convergence`, case by case -/
theorem checkConvergence_cases (E : Env F n) (step : Step F n) (fo : Funout F n) (st : St F n) :
    (lt E.opts.mu st.trRatio = true ∧
        lt (FloatOps.abs (fo.fval - st.fval)) (E.opts.fatol + E.opts.frtol * FloatOps.abs st.fval) = true ∧
        checkConvergence E step fo st = { st with exitflag := .ftol, converged := true }) ∨
    (1 < st.iteration ∧ lt (stepLength step) E.opts.xtol = true ∧
        checkConvergence E step fo st = { st with exitflag := .xtol, converged := true }) ∨
    ((le (norm fo.grad) E.opts.gatol = true ∨ le (norm fo.grad) (E.opts.grtol * FloatOps.abs st.fval) = true) ∧
        checkConvergence E step fo st = { st with exitflag := .gtol, converged := true }) ∨
    checkConvergence E step fo st = { st with converged := false } := by
  unfold checkConvergence
  simp only
  split
  · rename_i h
    rw [Bool.and_eq_true] at h
    exact Or.inl ⟨h.1, h.2, rfl⟩
  · split
    · rename_i h
      rw [Bool.and_eq_true, decide_eq_true_eq] at h
      exact Or.inr (Or.inl ⟨h.1, h.2, rfl⟩)
    · split
      · rename_i h
        exact Or.inr (Or.inr (Or.inl ⟨Or.inl h, rfl⟩))
      · split
        · rename_i h
          exact Or.inr (Or.inr (Or.inl ⟨Or.inr h, rfl⟩))
        · exact Or.inr (Or.inr (Or.inr rfl))

theorem loopHead_start_converged (E : Env F n) (x0 : Vec F n) (startId : String) (hess0 : Hess0 F) (st0 : St F n)
    (st : St F n) (cur : Funout F n) (h : LoopHead E x0 startId hess0 st0 0 st cur) : st.converged = false := by
  cases h with
  | start st1 _ _ hb hs =>
    obtain ⟨raw, happ, -, -, -, -, -, -, -, rfl⟩ := setup_ok E hess0 _ st cur hs
    rfl

end Fides
