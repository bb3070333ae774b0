import Verif.Spec.Run

/-! Helper lemmas: decomposition of one pass through the loop of `minimize`. -/

namespace Fides
open Spec
variable {F : Type} [FloatOps F] {n : ℕ}

/-- state after lines 386-387 -/
def preIter (st : St F n) : St F n := { st with iteration := st.iteration + 1, deltaIter := st.delta }
/-- the trial point (414) -/
def trialPoint (st : St F n) (step : Step F n) : Vec F n := vadd (vadd st.x step.s) step.s0
/-- state after the evaluation of the trial point -/
def afterEval (st : St F n) (step : Step F n) (out : Except PyErr (Funout F n)) : St F n :=
  { preIter st with proposals := st.proposals + 1, nextId := st.nextId + 1,
                    evals := { arg := trialPoint st step, out := out } :: st.evals }
/-- result of `update_tr_radius` -/
def radiusStep (E : Env F n) (st : St F n) (step : Step F n) (new : Funout F n) : Bool × St F n :=
  updateTrRadius E new step (trInput E (preIter st)).dv (afterEval st step (.ok new))
/-- state after `track_minimum` (428) -/
def postCheck (E : Env F n) (st : St F n) (step : Step F n) (new : Funout F n) : St F n :=
  trackMinimum new (checkConvergence E step new (radiusStep E st step new).2)
/-- result of the evaluation of the trial point -/
def trialOut (E : Env F n) (st : St F n) (step : Step F n) : Except PyErr (Funout F n) :=
  (evaluate E (trialPoint st step) st.nextId
    { preIter st with proposals := st.proposals + 1, nextId := st.nextId + 1 }).1

theorem evaluate_snd (E : Env F n) (x : Vec F n) (k : ℕ) (st : St F n) :
    (evaluate E x k st).2 = { st with evals := { arg := x, out := (evaluate E x k st).1 } :: st.evals } := rfl

theorem typed_x (raw : RawOut F) (x : Vec F n) (k : ℕ) (fo : Funout F n) (h : raw.typed x k = some fo) :
    fo.x = x ∧ fo.xId = k := by
  unfold RawOut.typed at h
  split at h
  · split at h
    · cases h; exact ⟨rfl, rfl⟩
    · split at h
      · cases h; exact ⟨rfl, rfl⟩
      · cases h
  · cases h

theorem evaluate_x (E : Env F n) (x : Vec F n) (k : ℕ) (st : St F n) (fo : Funout F n)
    (h : (evaluate E x k st).1 = .ok fo) : fo.x = x ∧ fo.xId = k := by
  simp only [evaluate] at h
  split at h
  · cases h
  · split at h
    · cases h
      rename_i h'
      exact typed_x _ _ _ _ h'
    · cases h

/-- what `track_history` makes of the history -/
def HistStep (E : Env F n) (accepted : Bool) (step : Step F n) (new : Funout F n) (inp : TRIn F n) (st : St F n)
    (h : History F) : Prop :=
  (E.opts.history = false ∧ h = st.history) ∨
  (E.opts.history = true ∧ ∃ row, historyRow E accepted step new inp.theta inp.prob.shess st = .ok row ∧
    h = appendRow st.history row)

/-- a complete pass through the loop body -/
theorem iterate_ok (E : Env F n) (st st' : St F n) (old old' : Funout F n) (h : iterate E st old = .ok (st', old')) :
    ∃ (step : Step F n) (new : Funout F n) (hist : History F),
      allFinite st.fval st.grad (some st.hess) = true ∧
      E.tr st.proposals (trInput E (preIter st)) = .ok step ∧
      trialOut E st step = .ok new ∧ new.x = trialPoint st step ∧ new.xId = st.nextId ∧
      (isFinite new.fval = true → allFinite new.fval new.grad new.hess = true) ∧
      (((radiusStep E st step new).1 = true ∧ old' = new ∧ ∃ st4, update E step new old (postCheck E st step new) = .ok st4 ∧
          HistStep E true step new (trInput E (preIter st)) st4 hist ∧ st' = { st4 with history := hist }) ∨
       ((radiusStep E st step new).1 = false ∧ old' = old ∧
          HistStep E false step new (trInput E (preIter st)) (postCheck E st step new) hist ∧
          st' = { postCheck E st step new with history := hist })) := by
  unfold iterate at h
  simp only [checkFinite] at h
  by_cases hf : allFinite st.fval st.grad (some st.hess) = true
  · rw [if_pos hf] at h
    simp only at h
    split at h
    · cases h
    · rename_i step hstep
      split at h
      · cases h
      · rename_i new st1 hev
        have hnew : trialOut E st step = .ok new := by
          have := congrArg Prod.fst hev
          exact this
        have hx := evaluate_x _ _ _ _ _ hnew
        have hst1 : st1 = afterEval st step (.ok new) := by
          have := congrArg Prod.snd hev
          rw [evaluate_snd] at this
          simp only at this
          rw [← this]
          simp only [afterEval, preIter, trialPoint]
          have h2 := hnew
          simp only [trialOut, preIter, trialPoint] at h2
          simp only [Nat.add_sub_cancel]
          rw [h2]
        subst hst1
        refine ⟨step, new, ?_⟩
        split at h
        · cases h
        · rename_i st2 hchk
          have h3 : st2 = afterEval st step (.ok new) ∧
              (isFinite new.fval = true → allFinite new.fval new.grad new.hess = true) := by
            by_cases hnf : isFinite new.fval = true
            · rw [if_pos hnf] at hchk
              by_cases ha : allFinite new.fval new.grad new.hess = true
              · rw [if_pos ha] at hchk; cases hchk; exact ⟨rfl, fun _ => ha⟩
              · rw [if_neg ha] at hchk; cases hchk
            · rw [if_neg hnf] at hchk; cases hchk; exact ⟨rfl, fun h => absurd h hnf⟩
          obtain ⟨rfl, hfin⟩ := h3
          have hacc : ∀ b, (radiusStep E st step new).1 = b → (updateTrRadius E new step
            (trInput E { st with iteration := st.iteration + 1, deltaIter := st.delta }).dv (afterEval st step (.ok new))).1 = b :=
            fun b hb => hb
          cases hb : (radiusStep E st step new).1 with
          | true =>
            rw [hacc _ hb] at h
            simp only [if_true] at h
            split at h
            · cases h
            · rename_i st4 hu
              have hu' : update E step new old (postCheck E st step new) = .ok st4 := hu
              by_cases hh : E.opts.history = true
              · rw [if_pos hh] at h
                split at h
                · cases h
                · rename_i row hrow
                  cases h
                  exact ⟨_, hf, hstep, hnew, hx.1, hx.2, hfin,
                    Or.inl ⟨rfl, rfl, st4, hu', Or.inr ⟨hh, row, hrow, rfl⟩, rfl⟩⟩
              · rw [if_neg hh] at h
                cases h
                exact ⟨_, hf, hstep, hnew, hx.1, hx.2, hfin,
                    Or.inl ⟨rfl, rfl, st', hu', Or.inl ⟨by simpa using hh, rfl⟩, rfl⟩⟩
          | false =>
            rw [hacc _ hb] at h
            simp only [Bool.false_eq_true, if_false] at h
            by_cases hh : E.opts.history = true
            · rw [if_pos hh] at h
              split at h
              · cases h
              · rename_i row hrow
                cases h
                exact ⟨_, hf, hstep, hnew, hx.1, hx.2, hfin, Or.inr ⟨rfl, rfl, Or.inr ⟨hh, row, hrow, rfl⟩, rfl⟩⟩
            · rw [if_neg hh] at h
              cases h
              exact ⟨_, hf, hstep, hnew, hx.1, hx.2, hfin, Or.inr ⟨rfl, rfl, Or.inl ⟨by simpa using hh, rfl⟩, rfl⟩⟩
  · rw [if_neg hf] at h
    cases h

/-- how a pass through the loop body can raise -/
theorem iterate_error (E : Env F n) (st st' : St F n) (old : Funout F n) (e : PyErr)
    (h : iterate E st old = .error (e, st')) :
    (allFinite st.fval st.grad (some st.hess) = false ∧ e = .runtimeError ∧
      st' = { preIter st with exitflag := .notFinite }) ∨
    (allFinite st.fval st.grad (some st.hess) = true ∧
      ((E.tr st.proposals (trInput E (preIter st)) = .error e ∧ st' = preIter st) ∨
      ∃ step, E.tr st.proposals (trInput E (preIter st)) = .ok step ∧
        ((trialOut E st step = .error e ∧ st' = afterEval st step (.error e)) ∨
        ∃ new, trialOut E st step = .ok new ∧ new.x = trialPoint st step ∧ new.xId = st.nextId ∧
          ((isFinite new.fval = true ∧ allFinite new.fval new.grad new.hess = false ∧ e = .runtimeError ∧
              st' = { afterEval st step (.ok new) with exitflag := .notFinite }) ∨
           ((isFinite new.fval = true → allFinite new.fval new.grad new.hess = true) ∧
            (((radiusStep E st step new).1 = true ∧ update E step new old (postCheck E st step new) = .error (e, st')) ∨
             ((radiusStep E st step new).1 = true ∧ update E step new old (postCheck E st step new) = .ok st' ∧
                historyRow E true step new (trInput E (preIter st)).theta (trInput E (preIter st)).prob.shess st' = .error e) ∨
             ((radiusStep E st step new).1 = false ∧ st' = postCheck E st step new ∧
                historyRow E false step new (trInput E (preIter st)).theta (trInput E (preIter st)).prob.shess st' =
                  .error e))))))) := by
  unfold iterate at h
  simp only [checkFinite] at h
  by_cases hf : allFinite st.fval st.grad (some st.hess) = true
  · rw [if_pos hf] at h
    refine Or.inr ⟨hf, ?_⟩
    simp only at h
    split at h
    · rename_i hstep
      cases h
      exact Or.inl ⟨hstep, rfl⟩
    · rename_i step hstep
      refine Or.inr ⟨step, hstep, ?_⟩
      split at h
      · rename_i e1 st1 hev
        cases h
        have hnew : trialOut E st step = .error e := congrArg Prod.fst hev
        refine Or.inl ⟨hnew, ?_⟩
        have := congrArg Prod.snd hev
        rw [evaluate_snd] at this
        simp only at this
        rw [← this]
        simp only [afterEval, preIter, trialPoint]
        have h2 := hnew
        simp only [trialOut, preIter, trialPoint] at h2
        simp only [Nat.add_sub_cancel]
        rw [h2]
      · rename_i new st1 hev
        have hnew : trialOut E st step = .ok new := congrArg Prod.fst hev
        have hx := evaluate_x _ _ _ _ _ hnew
        have hst1 : st1 = afterEval st step (.ok new) := by
          have := congrArg Prod.snd hev
          rw [evaluate_snd] at this
          simp only at this
          rw [← this]
          simp only [afterEval, preIter, trialPoint]
          have h2 := hnew
          simp only [trialOut, preIter, trialPoint] at h2
          simp only [Nat.add_sub_cancel]
          rw [h2]
        subst hst1
        refine Or.inr ⟨new, hnew, hx.1, hx.2, ?_⟩
        split at h
        · rename_i e1 hchk
          cases h
          left
          by_cases hnf : isFinite new.fval = true
          · rw [if_pos hnf] at hchk
            by_cases ha : allFinite new.fval new.grad new.hess = true
            · rw [if_pos ha] at hchk; cases hchk
            · rw [if_neg ha] at hchk; cases hchk; exact ⟨hnf, by simpa using ha, rfl, rfl⟩
          · rw [if_neg hnf] at hchk; cases hchk
        · rename_i st2 hchk
          have h3 : st2 = afterEval st step (.ok new) ∧
              (isFinite new.fval = true → allFinite new.fval new.grad new.hess = true) := by
            by_cases hnf : isFinite new.fval = true
            · rw [if_pos hnf] at hchk
              by_cases ha : allFinite new.fval new.grad new.hess = true
              · rw [if_pos ha] at hchk; cases hchk; exact ⟨rfl, fun _ => ha⟩
              · rw [if_neg ha] at hchk; cases hchk
            · rw [if_neg hnf] at hchk; cases hchk; exact ⟨rfl, fun h => absurd h hnf⟩
          obtain ⟨rfl, hfin⟩ := h3
          refine Or.inr ⟨hfin, ?_⟩
          have hacc : ∀ b, (radiusStep E st step new).1 = b → (updateTrRadius E new step
            (trInput E { st with iteration := st.iteration + 1, deltaIter := st.delta }).dv (afterEval st step (.ok new))).1 = b :=
            fun b hb => hb
          cases hb : (radiusStep E st step new).1 with
          | true =>
            rw [hacc _ hb] at h
            simp only [if_true] at h
            split at h
            · rename_i hu
              cases h
              exact Or.inl ⟨rfl, hu⟩
            · rename_i st4 hu
              have hu' : update E step new old (postCheck E st step new) = .ok st4 := hu
              by_cases hh : E.opts.history = true
              · rw [if_pos hh] at h
                split at h
                · rename_i hrow
                  cases h
                  exact Or.inr (Or.inl ⟨rfl, hu', hrow⟩)
                · cases h
              · rw [if_neg hh] at h
                cases h
          | false =>
            rw [hacc _ hb] at h
            simp only [Bool.false_eq_true, if_false] at h
            by_cases hh : E.opts.history = true
            · rw [if_pos hh] at h
              split at h
              · rename_i hrow
                cases h
                exact Or.inr (Or.inr ⟨rfl, rfl, hrow⟩)
              · cases h
            · rw [if_neg hh] at h
              cases h
  · rw [if_neg hf] at h
    cases h
    exact Or.inl ⟨by simpa using hf, rfl, rfl⟩

/-- what `update` does when it succeeds -/
theorem update_ok (E : Env F n) (step : Step F n) (new old : Funout F n) (st st' : St F n)
    (h : update E step new old st = .ok st') :
    inBounds E.lb E.ub new.x = true ∧ ∃ (happ : Option (Happ F n)) (hess : Mat F n n),
      ((∃ g g', st.happ = some g ∧ updateHapp st g step new old = .ok g' ∧ happ = some g' ∧ hess = g'.getMat) ∨
        (st.happ = none ∧ happ = none ∧ new.hess = some hess)) ∧
      st' = makeNonDegenerate E { st with happ := happ, hess := hess, fval := new.fval, x := new.x, xId := new.xId,
                                          grad := new.grad } := by
  unfold update at h
  simp only at h
  split at h
  · cases h
  · rename_i st1 hst1
    have key : ∃ (happ : Option (Happ F n)) (hess : Mat F n n),
      ((∃ g g', st.happ = some g ∧ updateHapp st g step new old = .ok g' ∧ happ = some g' ∧ hess = g'.getMat) ∨
        (st.happ = none ∧ happ = none ∧ new.hess = some hess)) ∧ st1 = { st with happ := happ, hess := hess } := by
      split at hst1
      · rename_i g hg
        split at hst1
        · cases hst1
        · rename_i g' hg'
          cases hst1
          exact ⟨some g', g'.getMat, Or.inl ⟨g, g', hg, hg', rfl, rfl⟩, rfl⟩
      · rename_i hg
        split at hst1
        · cases hst1
        · rename_i hm hhm
          cases hst1
          exact ⟨none, hm, Or.inr ⟨hg, rfl, hhm⟩, by rw [← hg]⟩
    obtain ⟨happ, hess, hk, rfl⟩ := key
    simp only [checkInBounds] at h
    by_cases hb : inBounds E.lb E.ub new.x = true
    · rw [if_pos hb] at h
      simp only [Except.ok.injEq] at h
      exact ⟨hb, happ, hess, hk, h.symm⟩
    · rw [if_neg hb] at h
      cases h

theorem updateHapp_ne (st : St F n) (g : Happ F n) (step : Step F n) (new old : Funout F n) (e : PyErr)
    (h : updateHapp st g step new old = .error e) : e ≠ .diverges ∧ e ≠ .runtimeError := by
  unfold updateHapp at h
  simp only at h
  repeat' split at h
  all_goals cases h
  all_goals simp

/-- how `update` can raise: the Hessian approximation refuses, or the accepted point is out of bounds -/
theorem update_error (E : Env F n) (step : Step F n) (new old : Funout F n) (st st' : St F n) (e : PyErr)
    (h : update E step new old st = .error (e, st')) :
    (st' = st ∧ e ≠ .diverges ∧ e ≠ .runtimeError) ∨ (inBounds E.lb E.ub new.x = false ∧ e = .runtimeError ∧
      ∃ (happ : Option (Happ F n)) (hess : Mat F n n),
        st' = { st with happ := happ, hess := hess, exitflag := .exceededBoundary }) := by
  unfold update at h
  simp only at h
  split at h
  · rename_i e1 hst1
    cases h
    left
    split at hst1
    · split at hst1
      · rename_i he; cases hst1; exact ⟨rfl, updateHapp_ne _ _ _ _ _ _ he⟩
      · cases hst1
    · split at hst1
      · cases hst1; exact ⟨rfl, by simp⟩
      · cases hst1
  · rename_i st1 hst1
    right
    have key : ∃ (happ : Option (Happ F n)) (hess : Mat F n n), st1 = { st with happ := happ, hess := hess } := by
      split at hst1
      · split at hst1
        · cases hst1
        · rename_i g' hg'
          cases hst1
          exact ⟨some g', g'.getMat, rfl⟩
      · rename_i hg
        split at hst1
        · cases hst1
        · rename_i hm hhm
          cases hst1
          exact ⟨none, hm, by rw [← hg]⟩
    obtain ⟨happ, hess, rfl⟩ := key
    simp only [checkInBounds] at h
    by_cases hb : inBounds E.lb E.ub new.x = true
    · rw [if_pos hb] at h
      cases h
    · rw [if_neg hb] at h
      cases h
      exact ⟨by simpa using hb, rfl, happ, hess, rfl⟩

/-- the trust-region ratio (minimize.py:565-571) for a finite trial value: with `h` the length-weighted curvature term,
`(f_old - f_new - h) / (-qpval)`, and 0 if the model predicts no decrease -/
def ratioOf (fval : F) (fo : Funout F n) (step : Step F n) (dv : Vec F n) : F :=
  if le (-step.qpval) (lit 0) then lit 0
  else (fval - fo.fval - lit (1 / 2) * dot (vadd step.ss step.ss0)
    (fun i => dv i * FloatOps.abs (fo.grad i) * vadd step.ss step.ss0 i)) / (-step.qpval)

/-- the shrunk radius (560, 584) -/
def shrunkDelta (E : Env F n) (delta : F) (step : Step F n) : F :=
  nanMin2 (delta * E.opts.gamma1) (norm (vadd step.ss step.ss0) / lit 4)

/-- `update_tr_radius`, case by case -/
theorem updateTrRadius_cases (E : Env F n) (fo : Funout F n) (step : Step F n) (dv : Vec F n) (st : St F n) :
    (isFinite fo.fval = false ∧ updateTrRadius E fo step dv st =
      (false, { st with trRatio := lit 0, delta := shrunkDelta E st.delta step, iterSinceTr := 0 })) ∨
    (isFinite fo.fval = true ∧ ∃ r, r = ratioOf st.fval fo step dv ∧
      let interior := lt (norm (vadd step.ss step.ss0)) (st.deltaIter * lit (9 / 10))
      ((le E.opts.eta r = true ∧ interior = false ∧ updateTrRadius E fo step dv st =
        (lt (lit 0) r, { st with trRatio := r, delta := E.opts.gamma2 * st.delta, iterSinceTr := 0 })) ∨
       ((le E.opts.eta r && !interior) = false ∧ le r E.opts.mu = true ∧ updateTrRadius E fo step dv st =
        (lt (lit 0) r, { st with trRatio := r, delta := shrunkDelta E st.delta step, iterSinceTr := 0 })) ∨
       ((le E.opts.eta r && !interior) = false ∧ le r E.opts.mu = false ∧ ∃ m, updateTrRadius E fo step dv st =
        (lt (lit 0) r, { st with trRatio := r, iterSinceTr := st.iterSinceTr + 1, nIntermediate := m })))) := by
  cases hf : isFinite fo.fval with
  | false =>
    left
    refine ⟨rfl, ?_⟩
    unfold updateTrRadius
    simp only [hf, Bool.not_false, if_true, shrunkDelta]
  | true =>
    right
    refine ⟨rfl, ratioOf st.fval fo step dv, rfl, ?_⟩
    have hfold : updateTrRadius E fo step dv st =
        (lt (lit 0) (ratioOf st.fval fo step dv),
          let st1 := { st with trRatio := ratioOf st.fval fo step dv, iterSinceTr := st.iterSinceTr + 1 }
          if le E.opts.eta (ratioOf st.fval fo step dv) && !(lt (norm (vadd step.ss step.ss0)) (st.deltaIter * lit (9 / 10))) then
            { st1 with delta := E.opts.gamma2 * st.delta, iterSinceTr := 0 }
          else if le (ratioOf st.fval fo step dv) E.opts.mu then
            { st1 with delta := shrunkDelta E st.delta step, iterSinceTr := 0 }
          else if lt E.opts.mu (ratioOf st.fval fo step dv) && lt (ratioOf st.fval fo step dv) E.opts.eta then
            { st1 with nIntermediate := st1.nIntermediate + 1 }
          else st1) := by
      unfold updateTrRadius
      simp only [hf, Bool.not_true, Bool.false_eq_true, if_false]
      rfl
    rw [hfold]
    generalize ratioOf st.fval fo step dv = r
    simp only
    by_cases h1 : (le E.opts.eta r && !(lt (norm (vadd step.ss step.ss0)) (st.deltaIter * lit (9 / 10)))) = true
    · left
      rw [if_pos h1]
      simp only [Bool.and_eq_true, Bool.not_eq_true'] at h1
      exact ⟨h1.1, h1.2, rfl⟩
    · right
      rw [if_neg h1]
      by_cases h2 : le r E.opts.mu = true
      · left; rw [if_pos h2]; exact ⟨by simpa using h1, h2, rfl⟩
      · right; rw [if_neg h2]
        refine ⟨by simpa using h1, by simpa using h2, ?_⟩
        split
        · exact ⟨_, rfl⟩
        · exact ⟨st.nIntermediate, rfl⟩

/-- fields `update_tr_radius` can change -/
theorem updateTrRadius_frame (E : Env F n) (fo : Funout F n) (step : Step F n) (dv : Vec F n) (st : St F n) :
    ∃ r d i m, (updateTrRadius E fo step dv st).2 =
      { st with trRatio := r, delta := d, iterSinceTr := i, nIntermediate := m } := by
  rcases updateTrRadius_cases E fo step dv st with ⟨_, h⟩ | ⟨_, r, _, ⟨_, _, h⟩ | ⟨_, _, h⟩ | ⟨_, _, m, h⟩⟩
  · rw [h]; exact ⟨_, _, _, st.nIntermediate, rfl⟩
  · rw [h]; exact ⟨_, _, _, st.nIntermediate, rfl⟩
  · rw [h]; exact ⟨_, _, _, st.nIntermediate, rfl⟩
  · rw [h]; exact ⟨_, st.delta, _, m, rfl⟩

/-- fields `check_convergence` can change -/
theorem checkConvergence_frame (E : Env F n) (step : Step F n) (fo : Funout F n) (st : St F n) :
    ∃ ef c, checkConvergence E step fo st = { st with exitflag := ef, converged := c } := by
  unfold checkConvergence
  simp only
  repeat' split
  all_goals first | exact ⟨_, _, rfl⟩ | exact ⟨st.exitflag, _, rfl⟩

/-- fields `track_minimum` can change -/
theorem trackMinimum_frame (fo : Funout F n) (st : St F n) :
    ∃ x i f g, trackMinimum fo st = { st with xMin := x, xMinId := i, fvalMin := f, gradMin := g } := by
  unfold trackMinimum
  split
  · exact ⟨_, _, _, _, rfl⟩
  · exact ⟨st.xMin, st.xMinId, st.fvalMin, st.gradMin, rfl⟩

/-- fields changed between the evaluation of a trial point and the decision about it -/
theorem postCheck_frame (E : Env F n) (st : St F n) (step : Step F n) (new : Funout F n) :
    ∃ r d i m ef c x xi f g, postCheck E st step new =
      { afterEval st step (.ok new) with
        trRatio := r, delta := d, iterSinceTr := i, nIntermediate := m, exitflag := ef, converged := c,
        xMin := x, xMinId := xi, fvalMin := f, gradMin := g } := by
  obtain ⟨r, d, i, m, h1⟩ := updateTrRadius_frame E new step (trInput E (preIter st)).dv (afterEval st step (.ok new))
  obtain ⟨ef, c, h2⟩ := checkConvergence_frame E step new (radiusStep E st step new).2
  obtain ⟨x, xi, f, g, h3⟩ := trackMinimum_frame new (checkConvergence E step new (radiusStep E st step new).2)
  refine ⟨r, d, i, m, ef, c, x, xi, f, g, ?_⟩
  unfold postCheck
  rw [h3, h2]
  unfold radiusStep
  rw [h1]

theorem checkContinue_true (E : Env F n) (st st1 : St F n) (h : checkContinue E st = (true, st1)) :
    st1 = { st with ticks := st.ticks + 1 } ∧ st.converged = false ∧ (st.iteration : Int) < E.opts.maxiter ∧
      lt (E.opts.maxtime - (E.clock st.ticks - st.starttime))
        ((E.clock st.ticks - st.starttime) / lit ((if st.iteration = 0 then 1 else st.iteration : Nat) : ℚ)) = false ∧
      lt st.delta spacing1 = false := by
  unfold checkContinue at h
  simp only at h
  generalize (if st.iteration = 0 then 1 else st.iteration : Nat) = m at h ⊢
  split at h
  · cases h
  · rename_i h1
    split at h
    · cases h
    · rename_i h2
      split at h
      · cases h
      · rename_i h3
        split at h
        · cases h
        · rename_i h4
          cases h
          exact ⟨rfl, by simpa using h1, not_le.mp h2, by simpa using h3, by simpa using h4⟩

/-- why `check_continue` stops -/
theorem checkContinue_false (E : Env F n) (st st1 : St F n) (h : checkContinue E st = (false, st1)) :
    (st.converged = true ∧ st1 = st) ∨
    (st.converged = false ∧ E.opts.maxiter ≤ (st.iteration : Int) ∧ st1 = { st with exitflag := .maxiter }) ∨
    (st.converged = false ∧ (st.iteration : Int) < E.opts.maxiter ∧
      lt (E.opts.maxtime - (E.clock st.ticks - st.starttime))
        ((E.clock st.ticks - st.starttime) / lit ((if st.iteration = 0 then 1 else st.iteration : Nat) : ℚ)) = true ∧
      st1 = { st with ticks := st.ticks + 1, exitflag := .maxtime }) ∨
    (st.converged = false ∧ (st.iteration : Int) < E.opts.maxiter ∧ lt st.delta spacing1 = true ∧
      st1 = { st with ticks := st.ticks + 1, exitflag := .deltaTooSmall }) := by
  unfold checkContinue at h
  simp only at h
  generalize (if st.iteration = 0 then 1 else st.iteration : Nat) = m at h ⊢
  split at h
  · rename_i h1
    cases h; exact Or.inl ⟨h1, rfl⟩
  · rename_i h1
    split at h
    · rename_i h2
      cases h
      exact Or.inr (Or.inl ⟨by simpa using h1, h2, rfl⟩)
    · rename_i h2
      split at h
      · rename_i h3
        cases h
        exact Or.inr (Or.inr (Or.inl ⟨by simpa using h1, not_le.mp h2, h3, rfl⟩))
      · split at h
        · rename_i h4
          cases h
          exact Or.inr (Or.inr (Or.inr ⟨by simpa using h1, not_le.mp h2, h4, rfl⟩))
        · cases h

/-! ### the start -/

theorem checkInBounds_ok (E : Env F n) (x : Vec F n) (st st' : St F n) (h : checkInBounds E x st = .ok st') :
    st' = st ∧ inBounds E.lb E.ub x = true := by
  unfold checkInBounds at h
  split at h
  · rename_i hb; cases h; exact ⟨rfl, hb⟩
  · cases h

theorem checkInBounds_error (E : Env F n) (x : Vec F n) (st st' : St F n) (e : PyErr)
    (h : checkInBounds E x st = .error (e, st')) :
    inBounds E.lb E.ub x = false ∧ e = .runtimeError ∧ st' = { st with exitflag := .exceededBoundary } := by
  unfold checkInBounds at h
  split at h
  · cases h
  · rename_i hb; cases h; exact ⟨by simpa using hb, rfl, rfl⟩

theorem checkFinite_ok (f : F) (g : Vec F n) (hs : Option (Mat F n n)) (st st' : St F n)
    (h : checkFinite f g hs st = .ok st') : st' = st ∧ allFinite f g hs = true := by
  unfold checkFinite at h
  split at h
  · rename_i hb; cases h; exact ⟨rfl, hb⟩
  · cases h

/-- log of the first evaluation -/
def logStart (st : St F n) (o : Except PyErr (Funout F n)) : St F n :=
  { st with evals := { arg := st.x, out := o } :: st.evals }

/-- state after the first evaluation and `track_minimum` -/
def setupState (st : St F n) (fo : Funout F n) (happ : Option (Happ F n)) : St F n :=
  trackMinimum fo { logStart st (.ok fo) with
    fval := fo.fval, grad := fo.grad, happ := happ,
    hess := match happ with | some h => h.getMat | none => fo.hess.getD mzero }

theorem funEval_ne (k : ℕ) (b : Bool) (r : Ret F) (e : PyErr) (h : funEval k b r = .error e) : e ≠ .diverges ∧ e ≠ .runtimeError := by
  unfold funEval at h
  repeat' split at h
  all_goals cases h
  all_goals simp

theorem checkdims_ne (k : ℕ) (o : RawOut F) (e : PyErr) (h : checkdims k o = .error e) : e ≠ .diverges ∧ e ≠ .runtimeError := by
  unfold checkdims at h
  repeat' split at h
  all_goals cases h
  all_goals simp

theorem initHapp_ne (g : Happ F n) (v : PyVal F) (e : PyErr) (h : initHapp g v = .error e) : e ≠ .diverges ∧ e ≠ .runtimeError := by
  unfold initHapp at h
  split at h
  · rename_i he
    cases h
    unfold initShapeCheck at he
    repeat' split at he
    all_goals cases he
    all_goals simp
  · split at h
    · cases h
    · split at h
      · cases h
      · cases h; simp

theorem initialHapp_ne (g : Option (Happ F n)) (h0 : Hess0 F) (raw : RawOut F) (e : PyErr)
    (h : initialHapp g h0 raw = .error e) : e ≠ .diverges ∧ e ≠ .runtimeError := by
  unfold initialHapp at h
  split at h
  · split at h
    · rename_i he
      cases h
      exact initHapp_ne _ _ _ he
    · cases h
  · split at h
    · cases h; simp
    · cases h

/-- the start of a run, up to the first loop test -/
theorem setup_ok (E : Env F n) (hess0 : Hess0 F) (st st' : St F n) (fo : Funout F n)
    (h : setup E hess0 st = .ok (st', fo)) :
    ∃ raw happ, funEval E.nargout E.resfun (E.obj st.evals.length st.x) = .ok raw ∧ initialHapp st.happ hess0 raw = .ok happ ∧
      checkdims n raw = .ok () ∧ raw.typed st.x st.xId = some fo ∧ fo.x = st.x ∧ fo.xId = st.xId ∧
      allFinite fo.fval fo.grad fo.hess = true ∧
      st' = { setupState st fo happ with converged := false } := by
  unfold setup at h
  simp only at h
  split at h
  · cases h
  · rename_i raw hraw
    split at h
    · cases h
    · rename_i happ hh
      split at h
      · cases h
      · rename_i hd
        split at h
        · cases h
        · rename_i fo' hty
          have hx := typed_x _ _ _ _ hty
          split at h
          · cases h
          · rename_i st2 hc
            cases h
            obtain ⟨rfl, hfin⟩ := checkFinite_ok _ _ _ _ _ hc
            exact ⟨raw, happ, hraw, hh, hd, hty, hx.1, hx.2, hfin, rfl⟩

/-- how the start can raise -/
theorem setup_error (E : Env F n) (hess0 : Hess0 F) (st st' : St F n) (e : PyErr)
    (h : setup E hess0 st = .error (e, st')) :
    (st' = logStart st (.error e) ∧ e ≠ .diverges ∧ e ≠ .runtimeError) ∨
    (∃ raw happ fo, funEval E.nargout E.resfun (E.obj st.evals.length st.x) = .ok raw ∧
      raw.typed st.x st.xId = some fo ∧ allFinite fo.fval fo.grad fo.hess = false ∧ e = .runtimeError ∧
      st' = { setupState st fo happ with exitflag := .notFinite }) := by
  unfold setup at h
  simp only at h
  split at h
  · rename_i hraw; cases h; exact Or.inl ⟨rfl, funEval_ne _ _ _ _ hraw⟩
  · rename_i raw hraw
    split at h
    · rename_i hh; cases h; exact Or.inl ⟨rfl, initialHapp_ne _ _ _ _ hh⟩
    · rename_i happ hh
      split at h
      · rename_i hd; cases h; exact Or.inl ⟨rfl, checkdims_ne _ _ _ hd⟩
      · rename_i hd
        split at h
        · cases h; exact Or.inl ⟨rfl, by simp⟩
        · rename_i fo' hty
          split at h
          · rename_i hc
            unfold checkFinite at hc
            split at hc
            · cases hc
            · rename_i hnf
              cases hc; cases h
              exact Or.inr ⟨raw, happ, fo', hraw, hty, by simpa using hnf, rfl, rfl⟩
          · cases h

theorem setupState_frame (st : St F n) (fo : Funout F n) (happ : Option (Happ F n)) :
    ∃ x i f g, setupState st fo happ = { logStart st (.ok fo) with
      fval := fo.fval, grad := fo.grad, happ := happ,
      hess := (match happ with | some h => h.getMat | none => fo.hess.getD mzero),
      xMin := x, xMinId := i, fvalMin := f, gradMin := g } := by
  unfold setupState
  obtain ⟨x, i, f, g, h⟩ := trackMinimum_frame fo { logStart st (.ok fo) with
    fval := fo.fval, grad := fo.grad, happ := happ,
    hess := match happ with | some h => h.getMat | none => fo.hess.getD mzero }
  exact ⟨x, i, f, g, h⟩

/-! ### the loop -/

section
variable (E : Env F n) (x0 : Vec F n) (startId : String) (hess0 : Hess0 F) (st0 : St F n)

theorem loop_ok (fuel : ℕ) (k : ℕ) (st st' : St F n) (cur : Funout F n)
    (hh : LoopHead E x0 startId hess0 st0 k st cur) (h : loop E fuel st cur = .ok st') :
    ∃ k' st1 cur1, k' ≤ k + fuel ∧ LoopHead E x0 startId hess0 st0 k' st1 cur1 ∧ checkContinue E st1 = (false, st') := by
  induction fuel generalizing k st cur with
  | zero =>
    unfold loop at h
    split at h
    · rename_i st1 hc
      cases h
      exact ⟨k, st, cur, by omega, hh, hc⟩
    · cases h
  | succ fuel ih =>
    unfold loop at h
    split at h
    · rename_i st1 hc
      cases h
      exact ⟨k, st, cur, by omega, hh, hc⟩
    · rename_i st1 hc
      simp only at h
      split at h
      · cases h
      · rename_i st2 cur2 hi
        obtain ⟨k', st3, cur3, h1, h2, h3⟩ := ih (k + 1) st2 cur2 (.next k st st1 st2 cur cur2 hh hc hi) h
        exact ⟨k', st3, cur3, by omega, h2, h3⟩

theorem loop_error (fuel : ℕ) (k : ℕ) (st st' : St F n) (cur : Funout F n) (e : PyErr)
    (hh : LoopHead E x0 startId hess0 st0 k st cur) (h : loop E fuel st cur = .error (e, st')) :
    ∃ k' st1 cur1 st2, LoopHead E x0 startId hess0 st0 k' st1 cur1 ∧ checkContinue E st1 = (true, st2) ∧
      ((e = .diverges ∧ st' = st2 ∧ k' = k + fuel) ∨ iterate E st2 cur1 = .error (e, st')) := by
  induction fuel generalizing k st cur with
  | zero =>
    unfold loop at h
    split at h
    · cases h
    · rename_i st1 hc
      simp only [Except.error.injEq, Prod.mk.injEq] at h
      obtain ⟨rfl, rfl⟩ := h
      exact ⟨k, st, cur, st1, hh, hc, Or.inl ⟨rfl, rfl, rfl⟩⟩
  | succ fuel ih =>
    unfold loop at h
    split at h
    · cases h
    · rename_i st1 hc
      simp only at h
      split at h
      · rename_i hi
        cases h
        exact ⟨k, st, cur, st1, hh, hc, Or.inr hi⟩
      · rename_i st2 cur2 hi
        obtain ⟨k', st3, cur3, st4, h1, h2, h3⟩ := ih (k + 1) st2 cur2 (.next k st st1 st2 cur cur2 hh hc hi) h
        exact ⟨k', st3, cur3, st4, h1, h2, h3.imp (fun ⟨a, b, c⟩ => ⟨a, b, by omega⟩) id⟩

/-- a normal return of `minimize` -/
theorem minimize_ok (fuel : ℕ) (st' : St F n) (h : minimize E fuel x0 startId hess0 st0 = .ok st') :
    0 < n ∧ ∃ k st1 cur st2, k ≤ fuel ∧ LoopHead E x0 startId hess0 st0 k st1 cur ∧
      checkContinue E st1 = (false, st2) ∧ writeHistory E st2 = .ok st' := by
  unfold minimize at h
  simp only at h
  split at h
  · cases h
  · rename_i hn
    refine ⟨Nat.pos_of_ne_zero hn, ?_⟩
    split at h
    · cases h
    · rename_i st1 hb
      split at h
      · cases h
      · rename_i st2 fo hs
        split at h
        · cases h
        · rename_i st3 hl
          obtain ⟨k, st4, cur4, h1, h2, h3⟩ := loop_ok E x0 startId hess0 st0 fuel 0 st2 st3 fo (.start st1 st2 fo hb hs) hl
          exact ⟨k, st4, cur4, st3, by omega, h2, h3, h⟩

/-- how `minimize` can raise -/
theorem minimize_error (fuel : ℕ) (st' : St F n) (e : PyErr) (h : minimize E fuel x0 startId hess0 st0 = .error (e, st')) :
    (n = 0 ∧ st'.evals = st0.evals ∧ st'.file = st0.file) ∨
    (checkInBounds E (startState E x0 startId st0).x (startState E x0 startId st0) = .error (e, st')) ∨
    (∃ st1, checkInBounds E (startState E x0 startId st0).x (startState E x0 startId st0) = .ok st1 ∧
      setup E hess0 st1 = .error (e, st')) ∨
    (∃ k st1 cur1 st2, LoopHead E x0 startId hess0 st0 k st1 cur1 ∧ checkContinue E st1 = (true, st2) ∧
      ((e = .diverges ∧ st' = st2 ∧ k = fuel) ∨ iterate E st2 cur1 = .error (e, st'))) ∨
    (∃ k st1 cur st2, LoopHead E x0 startId hess0 st0 k st1 cur ∧ checkContinue E st1 = (false, st2) ∧
      writeHistory E st2 = .error (e, st')) := by
  unfold minimize at h
  simp only at h
  split at h
  · rename_i hn
    cases h
    exact Or.inl ⟨hn, rfl, rfl⟩
  · right
    split at h
    · rename_i hb
      cases h
      exact Or.inl hb
    · rename_i st1 hb
      right
      split at h
      · rename_i hs
        cases h
        exact Or.inl ⟨st1, hb, hs⟩
      · rename_i st2 fo hs
        right
        split at h
        · rename_i hl
          cases h
          obtain ⟨k, st3, cur3, st4, h1, h2, h3⟩ :=
            loop_error E x0 startId hess0 st0 fuel 0 st2 st' fo e (.start st1 st2 fo hb hs) hl
          exact Or.inl ⟨k, st3, cur3, st4, h1, h2, h3.imp (fun ⟨a, b, c⟩ => ⟨a, b, by omega⟩) id⟩
        · rename_i st3 hl
          obtain ⟨k, st4, cur4, h1, h2, h3⟩ := loop_ok E x0 startId hess0 st0 fuel 0 st2 st3 fo (.start st1 st2 fo hb hs) hl
          exact Or.inr ⟨k, st4, cur4, st3, h2, h3, h⟩

end

end Fides
