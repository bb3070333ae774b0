import Verif.Lemmas.HeadInv
import Verif.Spec.Rerun

/-! Helper lemmas: a run on a used optimizer mimics the run on a fresh one (counters and identities are shifted). -/

set_option linter.unusedSectionVars false

namespace Fides
open Spec
variable {F : Type} [FloatOps F] [LawfulFloat F] {n : ℕ}

/-- an evaluation with another array identity -/
def shF (d : ℕ) (fo : Funout F n) : Funout F n := { fo with xId := fo.xId + d }
/-- a logged evaluation with another array identity -/
def shE (d : ℕ) (r : EvalRec F n) : EvalRec F n := { arg := r.arg, out := r.out.map (shF d) }

/-- the state of the run on the used optimizer `b` that corresponds to `st` -/
def sh (b : St F n) (d : ℕ) (t : F) (e : ExitFlag) (st : St F n) : St F n :=
  { st with
    ticks := st.ticks + b.ticks, proposals := st.proposals + b.proposals, nextId := st.nextId + d, xId := st.xId + d,
    xMinId := st.xMinId + d, evals := st.evals.map (shE d) ++ b.evals, file := b.file ++ st.file, trRatio := t, exitflag := e }

variable (E : Env F n) (b : St F n) (d : ℕ)

theorem checkContinue_sh (t : F) (e : ExitFlag) (st : St F n) :
    checkContinue E (sh b d t e st) = ((checkContinue (E.after b) st).1,
      sh b d t (if (checkContinue (E.after b) st).1 || st.converged then e else (checkContinue (E.after b) st).2.exitflag)
        (checkContinue (E.after b) st).2) := by
  have hck : E.clock (st.ticks + b.ticks) = (E.after b).clock st.ticks := rfl
  have hop : (E.after b).opts = E.opts := rfl
  have hc : (sh b d t e st).converged = st.converged := rfl
  have hi : (sh b d t e st).iteration = st.iteration := rfl
  have ht : (sh b d t e st).ticks = st.ticks + b.ticks := rfl
  have hs : (sh b d t e st).starttime = st.starttime := rfl
  have hd : (sh b d t e st).delta = st.delta := rfl
  unfold checkContinue
  rw [hop]
  simp only [hc, hi, ht, hs, hck, hd]
  by_cases h1 : st.converged = true
  · simp [h1]
  · simp only [h1, Bool.false_eq_true, if_false]
    by_cases h2 : E.opts.maxiter ≤ (st.iteration : Int)
    · simp only [h2, if_true]
      simp [sh]
    · simp only [h2, if_false]
      by_cases h3 : lt (E.opts.maxtime - ((E.after b).clock st.ticks - st.starttime))
          (((E.after b).clock st.ticks - st.starttime) / lit ((if st.iteration = 0 then 1 else st.iteration : Nat) : ℚ)) = true
      · simp only [h3, if_true]
        simp [sh, Nat.add_right_comm]
      · simp only [h3, if_false]
        by_cases h4 : lt st.delta spacing1 = true
        · simp only [h4, if_true]
          simp [sh, Nat.add_right_comm]
        · simp only [h4, if_false]
          simp [sh, Nat.add_right_comm]

theorem evaluate_sh (x : Vec F n) (k : ℕ) (t : F) (e : ExitFlag) (st : St F n) :
    evaluate E x (k + d) (sh b d t e st) =
      ((evaluate (E.after b) x k st).1.map (shF d), sh b d t e (evaluate (E.after b) x k st).2) := by
  have hty : ∀ raw : RawOut F, raw.typed x (k + d) = (raw.typed x k).map (shF d) := by
    intro raw
    unfold RawOut.typed
    split
    · split
      · rfl
      · split <;> rfl
    · rfl
  have hout : (evaluate E x (k + d) (sh b d t e st)).1 = (evaluate (E.after b) x k st).1.map (shF d) := by
    unfold evaluate
    have : E.obj (sh b d t e st).evals.length x = (E.after b).obj st.evals.length x := by
      simp [sh, Env.after]
    simp only [this]
    have hna : (E.after b).nargout = E.nargout := rfl
    have hrf : (E.after b).resfun = E.resfun := rfl
    rw [hna, hrf]
    cases hf : funEval E.nargout E.resfun ((E.after b).obj st.evals.length x) with
    | error e => rfl
    | ok raw =>
      simp only [hty]
      cases raw.typed x k with
      | none => rfl
      | some fo => rfl
  refine Prod.ext hout ?_
  rw [evaluate_snd, hout]
  rfl

theorem updateTrRadius_sh (fo : Funout F n) (step : Step F n) (dv : Vec F n) (t : F) (e : ExitFlag) (st : St F n) :
    updateTrRadius E (shF d fo) step dv (sh b d t e st) =
      ((updateTrRadius (E.after b) fo step dv st).1,
        sh b d (updateTrRadius (E.after b) fo step dv st).2.trRatio e (updateTrRadius (E.after b) fo step dv st).2) := by
  have hop : (E.after b).opts = E.opts := rfl
  unfold updateTrRadius
  rw [hop]
  have h1 : (shF d fo).fval = fo.fval := rfl
  have h2 : (shF d fo).grad = fo.grad := rfl
  have h3 : (sh b d t e st).fval = st.fval := rfl
  have h4 : (sh b d t e st).deltaIter = st.deltaIter := rfl
  have h5 : (sh b d t e st).delta = st.delta := rfl
  simp only [h1, h2, h3, h4, h5]
  cases isFinite fo.fval
  · rfl
  · generalize (if le (-step.qpval) (lit 0) = true then (lit 0 : F) else _) = r
    simp only [Bool.not_true, Bool.false_eq_true, if_false]
    cases (le E.opts.eta r && !lt (norm (vadd step.ss step.ss0)) (st.deltaIter * lit (9 / 10)))
    · cases le r E.opts.mu
      · cases (lt E.opts.mu r && lt r E.opts.eta) <;> rfl
      · rfl
    · rfl

theorem checkConvergence_sh (step : Step F n) (fo : Funout F n) (e : ExitFlag) (st : St F n) :
    checkConvergence E step (shF d fo) (sh b d st.trRatio e st) =
      sh b d st.trRatio (if (checkConvergence (E.after b) step fo st).converged then
        (checkConvergence (E.after b) step fo st).exitflag else e) (checkConvergence (E.after b) step fo st) := by
  have hop : (E.after b).opts = E.opts := rfl
  unfold checkConvergence
  rw [hop]
  have h1 : (shF d fo).fval = fo.fval := rfl
  have h2 : (shF d fo).grad = fo.grad := rfl
  have h3 : (sh b d st.trRatio e st).fval = st.fval := rfl
  have h4 : (sh b d st.trRatio e st).trRatio = st.trRatio := rfl
  have h5 : (sh b d st.trRatio e st).iteration = st.iteration := rfl
  simp only [h1, h2, h3, h4, h5]
  cases (lt E.opts.mu st.trRatio && lt (FloatOps.abs (fo.fval - st.fval)) (E.opts.fatol + E.opts.frtol * FloatOps.abs st.fval))
  · cases (decide (1 < st.iteration) && lt (norm (vadd step.ss step.ss0)) E.opts.xtol)
    · cases le (norm fo.grad) E.opts.gatol
      · cases le (norm fo.grad) (E.opts.grtol * FloatOps.abs st.fval) <;> rfl
      · rfl
    · rfl
  · rfl

theorem trackMinimum_sh (fo : Funout F n) (t : F) (e : ExitFlag) (st : St F n) :
    trackMinimum (shF d fo) (sh b d t e st) = sh b d t e (trackMinimum fo st) := by
  unfold trackMinimum
  have h1 : (shF d fo).fval = fo.fval := rfl
  have h2 : (sh b d t e st).fvalMin = st.fvalMin := rfl
  rw [h1, h2]
  cases (isFinite fo.fval && lt fo.fval st.fvalMin) <;> rfl

theorem makeNonDegenerate_sh (t : F) (e : ExitFlag) (st : St F n) :
    makeNonDegenerate E (sh b d t e st) = sh b d t e (makeNonDegenerate (E.after b) st) := by
  unfold makeNonDegenerate
  have hop : (E.after b).lb = E.lb := rfl
  have hop2 : (E.after b).ub = E.ub := rfl
  rw [hop, hop2]
  simp only [sh, Nat.add_right_cancel_iff]

theorem updateHapp_sh (t : F) (e : ExitFlag) (st : St F n) (h : Happ F n) (step : Step F n) (new old : Funout F n) :
    updateHapp (sh b d t e st) h step (shF d new) (shF d old) = updateHapp st h step new old := rfl

/-- both outcomes of a function that returns or raises: same result up to the shift, same exception -/
def SameOut {α β : Type} (f : α → β) (r : Except (PyErr × St F n) α) (r' : Except (PyErr × St F n) β) : Prop :=
  (∀ a, r = .ok a → r' = .ok (f a)) ∧ ∀ er s, r = .error (er, s) → ∃ s', r' = .error (er, s')

theorem update_sh (step : Step F n) (new old : Funout F n) (t : F) (e : ExitFlag) (st : St F n) :
    SameOut (sh b d t e) (update (E.after b) step new old st) (update E step (shF d new) (shF d old) (sh b d t e st)) := by
  have hlb : (E.after b).lb = E.lb := rfl
  have hub : (E.after b).ub = E.ub := rfl
  have hnx : (shF d new).x = new.x := rfl
  have hnh : (shF d new).hess = new.hess := rfl
  have hha : (sh b d t e st).happ = st.happ := rfl
  unfold update
  rw [hha]
  simp only [checkInBounds, hlb, hub, hnx, hnh]
  constructor
  · intro a ha
    cases hh : st.happ with
    | none =>
      rw [hh] at ha
      simp only at ha ⊢
      cases hm : new.hess with
      | none => rw [hm] at ha; cases ha
      | some m =>
        rw [hm] at ha
        simp only at ha ⊢
        by_cases hb : inBounds E.lb E.ub new.x = true
        · simp only [hb, if_true] at ha ⊢
          cases ha
          congr 1
          exact makeNonDegenerate_sh E b d t e { st with happ := none, hess := m, fval := new.fval, x := new.x, xId := new.xId, grad := new.grad }
        · simp only [hb, Bool.false_eq_true, if_false] at ha; cases ha
    | some g =>
      rw [hh] at ha
      simp only at ha ⊢
      rw [updateHapp_sh]
      cases hm : updateHapp st g step new old with
      | error er => rw [hm] at ha; cases ha
      | ok g' =>
        rw [hm] at ha
        simp only at ha ⊢
        by_cases hb : inBounds E.lb E.ub new.x = true
        · simp only [hb, if_true] at ha ⊢
          cases ha
          congr 1
          exact makeNonDegenerate_sh E b d t e { st with happ := some g', hess := g'.getMat, fval := new.fval, x := new.x, xId := new.xId, grad := new.grad }
        · simp only [hb, Bool.false_eq_true, if_false] at ha; cases ha
  · intro er s ha
    cases hh : st.happ with
    | none =>
      rw [hh] at ha
      simp only at ha ⊢
      cases hm : new.hess with
      | none => rw [hm] at ha; simp only at ha ⊢; cases ha; exact ⟨_, rfl⟩
      | some m =>
        rw [hm] at ha
        simp only at ha ⊢
        by_cases hb : inBounds E.lb E.ub new.x = true
        · simp only [hb, if_true] at ha; cases ha
        · simp only [hb, Bool.false_eq_true, if_false] at ha ⊢; cases ha; exact ⟨_, rfl⟩
    | some g =>
      rw [hh] at ha
      simp only at ha ⊢
      rw [updateHapp_sh]
      cases hm : updateHapp st g step new old with
      | error er => rw [hm] at ha; simp only at ha ⊢; cases ha; exact ⟨_, rfl⟩
      | ok g' =>
        rw [hm] at ha
        simp only at ha ⊢
        by_cases hb : inBounds E.lb E.ub new.x = true
        · simp only [hb, if_true] at ha; cases ha
        · simp only [hb, Bool.false_eq_true, if_false] at ha ⊢; cases ha; exact ⟨_, rfl⟩

theorem historyRow_sh (acc : Bool) (step : Step F n) (fo : Funout F n) (th : F) (shs : Mat F n n) (e : ExitFlag) (st : St F n) :
    historyRow E acc step (shF d fo) th shs (sh b d st.trRatio e st) = historyRow (E.after b) acc step fo th shs st := rfl

theorem preIter_sh (t : F) (e : ExitFlag) (st : St F n) : preIter (sh b d t e st) = sh b d t e (preIter st) := rfl

theorem trInput_sh (t : F) (e : ExitFlag) (st : St F n) : trInput E (sh b d t e st) = trInput (E.after b) st := rfl

/-- the flag of the corresponding state -/
def flagOf (e : ExitFlag) (st : St F n) : ExitFlag := if st.converged then st.exitflag else e

theorem update_conv (step : Step F n) (new old : Funout F n) (st st' : St F n) (h : update E step new old st = .ok st') :
    st'.converged = st.converged ∧ st'.exitflag = st.exitflag ∧ st'.trRatio = st.trRatio := by
  obtain ⟨_, happ, hess, _, rfl⟩ := update_ok E step new old st st' h
  exact ⟨rfl, rfl, rfl⟩

theorem postCheck_sh (step : Step F n) (new : Funout F n) (t : F) (e : ExitFlag) (st : St F n) :
    postCheck E (sh b d t e st) step (shF d new) = sh b d (postCheck (E.after b) st step new).trRatio
      (flagOf e (postCheck (E.after b) st step new)) (postCheck (E.after b) st step new) ∧
    (radiusStep E (sh b d t e st) step (shF d new)).1 = (radiusStep (E.after b) st step new).1 := by
  have hae : afterEval (sh b d t e st) step (.ok (shF d new)) = sh b d t e (afterEval st step (.ok new)) := by
    unfold afterEval
    have : (preIter st).nextId + 1 + d = (preIter st).nextId + d + 1 := by omega
    simp [preIter, sh, shE, trialPoint, Nat.add_right_comm]
    rfl
  have hr : radiusStep E (sh b d t e st) step (shF d new) = ((radiusStep (E.after b) st step new).1,
      sh b d (radiusStep (E.after b) st step new).2.trRatio e (radiusStep (E.after b) st step new).2) := by
    unfold radiusStep
    rw [hae, updateTrRadius_sh]
    rfl
  refine ⟨?_, by rw [hr]⟩
  unfold postCheck
  rw [hr]
  simp only
  rw [checkConvergence_sh, trackMinimum_sh]
  obtain ⟨x, i, f, g, h⟩ := trackMinimum_frame new (checkConvergence (E.after b) step new (radiusStep (E.after b) st step new).2)
  obtain ⟨ef, c, h'⟩ := checkConvergence_frame (E.after b) step new (radiusStep (E.after b) st step new).2
  rw [h]
  simp only [flagOf]
  rw [h']

theorem trialOut_sh (step : Step F n) (t : F) (e : ExitFlag) (st : St F n) :
    trialOut E (sh b d t e st) step = (trialOut (E.after b) st step).map (shF d) := by
  unfold trialOut
  have : ({ preIter (sh b d t e st) with proposals := (sh b d t e st).proposals + 1, nextId := (sh b d t e st).nextId + 1 } : St F n) =
      sh b d t e { preIter st with proposals := st.proposals + 1, nextId := st.nextId + 1 } := by
    simp [preIter, sh, Nat.add_right_comm]
  rw [this]
  have h2 := evaluate_sh E b d (trialPoint st step) st.nextId t e { preIter st with proposals := st.proposals + 1, nextId := st.nextId + 1 }
  exact congrArg Prod.fst h2

/-- the end of the loop body, after the evaluation and its checks -/
def finish (E : Env F n) (st : St F n) (old : Funout F n) (step : Step F n) (new : Funout F n) :
    Except (PyErr × St F n) (St F n × Funout F n) :=
  match (if (radiusStep E st step new).1 then update E step new old (postCheck E st step new) else .ok (postCheck E st step new)) with
  | .error e => .error e
  | .ok s =>
    if E.opts.history then
      match historyRow E (radiusStep E st step new).1 step new (trInput E (preIter st)).theta (trInput E (preIter st)).prob.shess s with
      | .error e => .error (e, s)
      | .ok row => .ok ({ s with history := appendRow s.history row }, if (radiusStep E st step new).1 then new else old)
    else .ok (s, if (radiusStep E st step new).1 then new else old)

/-- the loop body in terms of its parts -/
theorem iterate_eq (E : Env F n) (st : St F n) (old : Funout F n) : iterate E st old =
    if allFinite st.fval st.grad (some st.hess) then
      match E.tr st.proposals (trInput E (preIter st)) with
      | .error e => .error (e, preIter st)
      | .ok step =>
        match trialOut E st step with
        | .error e => .error (e, afterEval st step (.error e))
        | .ok new =>
          if isFinite new.fval && !allFinite new.fval new.grad new.hess then
            .error (.runtimeError, { afterEval st step (.ok new) with exitflag := .notFinite })
          else finish E st old step new
    else .error (.runtimeError, { preIter st with exitflag := .notFinite }) := by
  unfold iterate
  simp only
  rw [show ({ st with iteration := st.iteration + 1, deltaIter := st.delta } : St F n) = preIter st from rfl]
  by_cases hf : allFinite st.fval st.grad (some st.hess) = true
  · have hf' : allFinite (preIter st).fval (preIter st).grad (some (preIter st).hess) = true := hf
    have hp : (preIter st).proposals = st.proposals := rfl
    simp only [checkFinite, hf, hf', if_true, hp]
    cases E.tr st.proposals (trInput E (preIter st)) with
    | error e => rfl
    | ok step =>
      simp only
      rw [show vadd (vadd (preIter st).x step.s) step.s0 = trialPoint st step from rfl]
      rw [show (preIter st).nextId + 1 - 1 = st.nextId from rfl]
      have he : evaluate E (trialPoint st step) st.nextId
          { preIter st with proposals := st.proposals + 1, nextId := (preIter st).nextId + 1 } =
          (trialOut E st step, afterEval st step (trialOut E st step)) := by
        have h1 : (evaluate E (trialPoint st step) st.nextId
          { preIter st with proposals := (preIter st).proposals + 1, nextId := (preIter st).nextId + 1 }).1 = trialOut E st step := rfl
        rw [Prod.ext_iff]
        refine ⟨h1, ?_⟩
        rw [evaluate_snd, ← h1]
        rfl
      rw [he]
      cases trialOut E st step with
      | error e => rfl
      | ok new =>
        simp only
        cases hb : isFinite new.fval
        · simp only [Bool.false_and, Bool.false_eq_true, if_false]
          rfl
        · cases ha : allFinite new.fval new.grad new.hess
          · simp only [Bool.true_and, Bool.not_false, if_true, Bool.false_eq_true, if_false]
          · simp only [Bool.true_and, Bool.not_true, if_true, Bool.false_eq_true, if_false]
            rfl
  · simp only [checkFinite, hf, Bool.false_eq_true, if_false]

theorem finish_sh (step : Step F n) (new old : Funout F n) (t : F) (e : ExitFlag) (st : St F n) :
    SameOut (fun p => (sh b d p.1.trRatio (flagOf e p.1) p.1, shF d p.2)) (finish (E.after b) st old step new)
      (finish E (sh b d t e st) (shF d old) step (shF d new)) := by
  obtain ⟨hp, hr⟩ := postCheck_sh E b d step new t e st
  have hti : trInput E (preIter (sh b d t e st)) = trInput (E.after b) (preIter st) := rfl
  unfold finish
  rw [hp, hr, hti]
  have hop : (E.after b).opts.history = E.opts.history := rfl
  have key : SameOut (sh b d (postCheck (E.after b) st step new).trRatio (flagOf e (postCheck (E.after b) st step new)))
      (if (radiusStep (E.after b) st step new).1 then update (E.after b) step new old (postCheck (E.after b) st step new)
        else .ok (postCheck (E.after b) st step new))
      (if (radiusStep (E.after b) st step new).1 then update E step (shF d new) (shF d old)
        (sh b d (postCheck (E.after b) st step new).trRatio (flagOf e (postCheck (E.after b) st step new)) (postCheck (E.after b) st step new))
        else .ok (sh b d (postCheck (E.after b) st step new).trRatio (flagOf e (postCheck (E.after b) st step new)) (postCheck (E.after b) st step new))) := by
    split
    · exact update_sh E b d step new old _ _ _
    · refine ⟨?_, ?_⟩
      · intro a ha; cases ha; rfl
      · intro er s ha; cases ha
  have keyc : ∀ s, (if (radiusStep (E.after b) st step new).1 then update (E.after b) step new old (postCheck (E.after b) st step new)
        else .ok (postCheck (E.after b) st step new)) = .ok s → s.trRatio = (postCheck (E.after b) st step new).trRatio ∧
        flagOf e s = flagOf e (postCheck (E.after b) st step new) := by
    intro s hs
    split at hs
    · obtain ⟨h1, h2, h3⟩ := update_conv _ _ _ _ _ _ hs
      exact ⟨h3, by unfold flagOf; rw [h1, h2]⟩
    · cases hs; exact ⟨rfl, rfl⟩
  revert key keyc
  generalize (if (radiusStep (E.after b) st step new).1 then update (E.after b) step new old (postCheck (E.after b) st step new)
        else .ok (postCheck (E.after b) st step new)) = r
  generalize (if (radiusStep (E.after b) st step new).1 then update E step (shF d new) (shF d old) _ else Except.ok _) = r'
  generalize (radiusStep (E.after b) st step new).1 = acc
  intro key keyc
  cases r with
  | error x =>
    obtain ⟨er, s⟩ := x
    obtain ⟨s', hs'⟩ := key.2 er s rfl
    subst hs'
    refine ⟨?_, ?_⟩
    · intro a ha; cases ha
    · intro er1 s1 ha; cases ha; exact ⟨s', rfl⟩
  | ok s =>
    have hs' := key.1 s rfl
    obtain ⟨h1, h2⟩ := keyc s rfl
    subst hs'
    rw [← h1, ← h2]
    simp only [hop, historyRow_sh]
    have hsf : (if acc then shF d new else shF d old) = shF d (if acc then new else old) := by cases acc <;> rfl
    rw [hsf]
    cases E.opts.history
    · simp only [Bool.false_eq_true, if_false]
      refine ⟨?_, ?_⟩
      · intro a ha; cases ha; rfl
      · intro er1 s1 ha; cases ha
    · simp only [if_true]
      cases historyRow (E.after b) acc step new (trInput (E.after b) (preIter st)).theta
          (trInput (E.after b) (preIter st)).prob.shess s with
      | error x =>
        refine ⟨?_, ?_⟩
        · intro a ha; cases ha
        · intro er1 s1 ha; cases ha; exact ⟨_, rfl⟩
      | ok row =>
        refine ⟨?_, ?_⟩
        · intro a ha; cases ha; rfl
        · intro er1 s1 ha; cases ha

theorem iterate_sh (old : Funout F n) (t : F) (e : ExitFlag) (st : St F n) :
    SameOut (fun p => (sh b d p.1.trRatio (flagOf e p.1) p.1, shF d p.2)) (iterate (E.after b) st old)
      (iterate E (sh b d t e st) (shF d old)) := by
  rw [iterate_eq, iterate_eq]
  have hti : trInput E (preIter (sh b d t e st)) = trInput (E.after b) (preIter st) := rfl
  have htr : E.tr (sh b d t e st).proposals = (E.after b).tr st.proposals := rfl
  have hfin : allFinite (sh b d t e st).fval (sh b d t e st).grad (some (sh b d t e st).hess) =
    allFinite st.fval st.grad (some st.hess) := rfl
  rw [hti, htr, hfin]
  cases allFinite st.fval st.grad (some st.hess)
  · simp only [Bool.false_eq_true, if_false]
    refine ⟨?_, ?_⟩
    · intro a ha; cases ha
    · intro er1 s1 ha; cases ha; exact ⟨_, rfl⟩
  · simp only [if_true]
    cases (E.after b).tr st.proposals (trInput (E.after b) (preIter st)) with
    | error x =>
      refine ⟨?_, ?_⟩
      · intro a ha; cases ha
      · intro er1 s1 ha; cases ha; exact ⟨_, rfl⟩
    | ok step =>
      simp only [trialOut_sh]
      cases trialOut (E.after b) st step with
      | error x =>
        refine ⟨?_, ?_⟩
        · intro a ha; cases ha
        · intro er1 s1 ha; cases ha; exact ⟨_, rfl⟩
      | ok new =>
        simp only [Except.map]
        have h1 : (shF d new).fval = new.fval := rfl
        have h2 : (shF d new).grad = new.grad := rfl
        have h3 : (shF d new).hess = new.hess := rfl
        rw [h1, h2, h3]
        cases (isFinite new.fval && !allFinite new.fval new.grad new.hess)
        · simp only [Bool.false_eq_true, if_false]
          exact finish_sh E b d step new old t e st
        · simp only [if_true]
          refine ⟨?_, ?_⟩
          · intro a ha; cases ha
          · intro er1 s1 ha; cases ha; exact ⟨_, rfl⟩

theorem loop_sh (fuel : ℕ) (old : Funout F n) (t : F) (e : ExitFlag) (st : St F n) (hc : st.converged = true → e = st.exitflag) :
    (∀ s, loop (E.after b) fuel st old = .ok s → ∃ t', loop E fuel (sh b d t e st) (shF d old) = .ok (sh b d t' s.exitflag s)) ∧
    ∀ er s, loop (E.after b) fuel st old = .error (er, s) → ∃ s', loop E fuel (sh b d t e st) (shF d old) = .error (er, s') := by
  induction fuel generalizing old t e st with
  | zero =>
    rw [loop, loop, checkContinue_sh]
    cases hcc : checkContinue (E.after b) st with
    | mk g s =>
      cases g
      · simp only [Bool.false_or]
        refine ⟨?_, ?_⟩
        · intro s1 h1
          cases h1
          refine ⟨t, ?_⟩
          congr 2
          split
          · rename_i hcv
            rw [hc hcv]
            have : s = st := by
              unfold checkContinue at hcc
              rw [if_pos hcv] at hcc
              cases hcc; rfl
            rw [this]
          · rfl
        · intro er s1 h1; cases h1
      · refine ⟨?_, ?_⟩
        · intro s1 h1; cases h1
        · intro er s1 h1; cases h1; exact ⟨_, rfl⟩
  | succ fuel ih =>
    rw [loop, loop, checkContinue_sh]
    cases hcc : checkContinue (E.after b) st with
    | mk g s =>
      cases g
      · simp only [Bool.false_or]
        refine ⟨?_, ?_⟩
        · intro s1 h1
          cases h1
          refine ⟨t, ?_⟩
          congr 2
          split
          · rename_i hcv
            rw [hc hcv]
            have : s = st := by
              unfold checkContinue at hcc
              rw [if_pos hcv] at hcc
              cases hcc; rfl
            rw [this]
          · rfl
        · intro er s1 h1; cases h1
      · simp only [Bool.true_or, if_true]
        have hi := iterate_sh E b d old t e s
        cases hit : iterate (E.after b) s old with
        | error x =>
          obtain ⟨er, s2⟩ := x
          obtain ⟨s', hs'⟩ := hi.2 er s2 hit
          rw [hs']
          refine ⟨?_, ?_⟩
          · intro s1 h1; cases h1
          · intro er1 s1 h1; cases h1; exact ⟨_, rfl⟩
        | ok p =>
          obtain ⟨s2, o2⟩ := p
          rw [hi.1 (s2, o2) hit]
          simp only
          refine ih o2 s2.trRatio (flagOf e s2) s2 ?_
          intro hcv
          unfold flagOf
          rw [if_pos hcv]

/-- the state of the used optimizer at the start: what a new run does not reset keeps its old value -/
def stale (f : F) (g : Vec F n) (hs : Mat F n n) (xm : Vec F n) (xi : ℕ) (gm : Vec F n) (hp : Option (Happ F n)) (st : St F n) : St F n :=
  { st with fval := f, grad := g, hess := hs, xMin := xm, xMinId := xi, gradMin := gm, happ := hp }

theorem initHapp_congr (h h' : Happ F n) (v : PyVal F) (hc : ∀ m, h.initMat m = h'.initMat m) : initHapp h v = initHapp h' v := by
  unfold initHapp
  cases initShapeCheck n v with
  | error e => rfl
  | ok u =>
    simp only
    split
    · rw [hc]
    · split
      · rw [hc]
      · rfl

theorem initialHapp_congr (h h' : Option (Happ F n)) (h0 : Hess0 F) (raw : RawOut F)
    (hc : ∀ m, h.map (fun g => g.initMat m) = h'.map (fun g => g.initMat m)) : initialHapp h h0 raw = initialHapp h' h0 raw := by
  cases h with
  | none =>
    cases h' with
    | none => rfl
    | some g' => have := hc none; cases this
  | some g =>
    cases h' with
    | none => have := hc none; cases this
    | some g' =>
      have hc' : ∀ m, g.initMat m = g'.initMat m := fun m => by have := hc m; simpa using this
      unfold initialHapp
      simp only [initHapp_congr g g' _ hc']

theorem setup_sh (hess0 : Hess0 F) (t : F) (e : ExitFlag) (a : St F n) (f : F) (g : Vec F n) (hs : Mat F n n) (xm : Vec F n) (xi : ℕ)
    (gm : Vec F n) (hp : Option (Happ F n)) (hmin : a.fvalMin = FloatOps.inf)
    (hc : ∀ m, hp.map (fun g => g.initMat m) = a.happ.map (fun g => g.initMat m)) :
    SameOut (fun p => (sh b d t e p.1, shF d p.2)) (setup (E.after b) hess0 a)
      (setup E hess0 (stale f g hs xm xi gm hp (sh b d t e a))) := by
  have hty : ∀ raw : RawOut F, raw.typed a.x (a.xId + d) = (raw.typed a.x a.xId).map (shF d) := by
    intro raw
    unfold RawOut.typed
    split
    · split
      · rfl
      · split <;> rfl
    · rfl
  have hobj : E.obj (stale f g hs xm xi gm hp (sh b d t e a)).evals.length = (E.after b).obj a.evals.length := by
    simp [stale, sh, Env.after]
  have hna : (E.after b).nargout = E.nargout := rfl
  have hrf : (E.after b).resfun = E.resfun := rfl
  have hx : (stale f g hs xm xi gm hp (sh b d t e a)).x = a.x := rfl
  have hxi : (stale f g hs xm xi gm hp (sh b d t e a)).xId = a.xId + d := rfl
  have hha : (stale f g hs xm xi gm hp (sh b d t e a)).happ = hp := rfl
  unfold setup
  simp only [hobj, hna, hrf, hx, hxi, hha, hty, initialHapp_congr hp a.happ _ _ hc]
  cases funEval E.nargout E.resfun ((E.after b).obj a.evals.length a.x) with
  | error er => exact ⟨fun _ h => (by cases h), fun _ _ h => by cases h; exact ⟨_, rfl⟩⟩
  | ok raw =>
    simp only
    cases initialHapp a.happ hess0 raw with
    | error er => exact ⟨fun _ h => (by cases h), fun _ _ h => by cases h; exact ⟨_, rfl⟩⟩
    | ok happ =>
      simp only
      cases checkdims n raw with
      | error er => exact ⟨fun _ h => (by cases h), fun _ _ h => by cases h; exact ⟨_, rfl⟩⟩
      | ok u =>
        simp only
        cases raw.typed a.x a.xId with
        | none => exact ⟨fun _ h => (by cases h), fun _ _ h => by cases h; exact ⟨_, rfl⟩⟩
        | some fo =>
          have h1 : (shF d fo).fval = fo.fval := rfl
          have h2 : (shF d fo).grad = fo.grad := rfl
          have h3 : (shF d fo).hess = fo.hess := rfl
          simp only [Option.map, checkFinite, h1, h2, h3]
          cases hfin : allFinite fo.fval fo.grad fo.hess
          · simp only [Bool.false_eq_true, if_false]
            exact ⟨fun _ h => (by cases h), fun _ _ h => by cases h; exact ⟨_, rfl⟩⟩
          · simp only [if_true]
            have hff : isFinite fo.fval = true := by
              unfold allFinite at hfin
              simp only [Bool.and_eq_true] at hfin
              exact hfin.1.1
            have hlt : lt fo.fval FloatOps.inf = true := LawfulFloat.finite_lt_inf _ hff
            refine ⟨?_, fun _ _ h => by cases h⟩
            intro p h
            cases h
            unfold trackMinimum
            have e1 : (stale f g hs xm xi gm hp (sh b d t e a)).fvalMin = FloatOps.inf := hmin
            simp only [h1, h2, h3, hmin, e1, hff, hlt, Bool.and_self, if_true]
            rfl

/-- two outcomes of `minimize` agree up to counters -/
theorem minimize_sh (fuel : ℕ) (x0 : Vec F n) (startId : String) (hess0 : Hess0 F) (happ0 : Option (Happ F n))
    (hd : b.nextId = 1 + d) (hc : ∀ m, b.happ.map (fun g => g.initMat m) = happ0.map (fun g => g.initMat m))
    (hfile : ∀ g ∈ b.file, g.1 ≠ startId) :
    (∀ s, minimize (E.after b) fuel x0 startId hess0 (St.new E.opts happ0) = .ok s →
      ∃ t', minimize E fuel x0 startId hess0 b = .ok (sh b d t' s.exitflag s)) ∧
    ∀ er s, minimize (E.after b) fuel x0 startId hess0 (St.new E.opts happ0) = .error (er, s) →
      ∃ s', minimize E fuel x0 startId hess0 b = .error (er, s') := by
  unfold minimize
  by_cases hn : n = 0
  · subst hn
    simp only [if_true]
    exact ⟨fun _ h => (by cases h), fun _ _ h => by cases h; exact ⟨_, rfl⟩⟩
  · simp only [hn, if_false]
    rw [show makeNonDegenerate E { reset E startId b with x := x0, xId := (reset E startId b).nextId, nextId := (reset E startId b).nextId + 1 } = startState E x0 startId b from rfl]
    rw [show makeNonDegenerate (E.after b) { reset (E.after b) startId (St.new E.opts happ0) with x := x0, xId := (reset (E.after b) startId (St.new E.opts happ0)).nextId, nextId := (reset (E.after b) startId (St.new E.opts happ0)).nextId + 1 } = startState (E.after b) x0 startId (St.new E.opts happ0) from rfl]
    have hst : startState E x0 startId b = stale b.fval b.grad b.hess (startState E x0 startId b).xMin b.xMinId b.gradMin b.happ
        (sh b d b.trRatio b.exitflag (startState (E.after b) x0 startId (St.new E.opts happ0))) := by
      simp only [startState, makeNonDegenerate, reset, stale, sh, St.new, Env.after, hd]
      simp [Nat.add_comm, Nat.add_left_comm]
    have hb1 : (startState E x0 startId b).x = (startState (E.after b) x0 startId (St.new E.opts happ0)).x := rfl
    have hlb : (E.after b).lb = E.lb := rfl
    have hub : (E.after b).ub = E.ub := rfl
    have hhi : (E.after b).opts.history = E.opts.history := rfl
    simp only [checkInBounds, hb1, hlb, hub]
    have hsf : (startState (E.after b) x0 startId (St.new E.opts happ0)).file = [] := rfl
    have hsmin : (startState (E.after b) x0 startId (St.new E.opts happ0)).fvalMin = FloatOps.inf := rfl
    have hsha : (startState (E.after b) x0 startId (St.new E.opts happ0)).happ = happ0 := rfl
    by_cases hib : inBounds E.lb E.ub (startState (E.after b) x0 startId (St.new E.opts happ0)).x = true
    · simp only [hib, if_true]
      have hset := setup_sh E b d hess0 b.trRatio b.exitflag (startState (E.after b) x0 startId (St.new E.opts happ0))
        b.fval b.grad b.hess (startState E x0 startId b).xMin b.xMinId b.gradMin b.happ hsmin (by rw [hsha]; exact hc)
      rw [← hst] at hset
      cases hs : setup (E.after b) hess0 (startState (E.after b) x0 startId (St.new E.opts happ0)) with
      | error x =>
        obtain ⟨er, s⟩ := x
        obtain ⟨s', hs'⟩ := hset.2 er s hs
        rw [hs']
        exact ⟨fun _ h => (by cases h), fun _ _ h => by cases h; exact ⟨_, rfl⟩⟩
      | ok p =>
        obtain ⟨s, fo⟩ := p
        rw [hset.1 (s, fo) hs]
        simp only
        have hcv : s.converged = false := by
          obtain ⟨_, _, _, _, _, _, _, _, _, h⟩ := setup_ok _ _ _ _ _ hs
          rw [h]
        obtain ⟨l1, l2⟩ := loop_sh E b d fuel fo b.trRatio b.exitflag s (by rw [hcv]; intro h; cases h)
        cases hl : loop (E.after b) fuel s fo with
        | error x =>
          obtain ⟨er, s1⟩ := x
          obtain ⟨s', hs'⟩ := l2 er s1 hl
          rw [hs']
          exact ⟨fun _ h => (by cases h), fun _ _ h => by cases h; exact ⟨_, rfl⟩⟩
        | ok s1 =>
          obtain ⟨t', ht'⟩ := l1 s1 hl
          rw [ht']
          simp only
          have hf1 : s1.file = [] ∧ s1.startId = startId := by
            have hbo : checkInBounds (E.after b) (startState (E.after b) x0 startId (St.new E.opts happ0)).x
                (startState (E.after b) x0 startId (St.new E.opts happ0)) =
                .ok (startState (E.after b) x0 startId (St.new E.opts happ0)) := by
              exact if_pos hib
            obtain ⟨k, s2, c2, _, h2, h3⟩ := loop_ok (E.after b) x0 startId hess0 (St.new E.opts happ0) fuel 0 s s1 fo (.start _ s fo hbo hs) hl
            have hinv := headInv (E.after b) x0 startId hess0 (St.new E.opts happ0) k s2 c2 h2
            have h4 : s1.file = s2.file ∧ s1.startId = s2.startId := by
              unfold checkContinue at h3
              simp only at h3
              repeat' split at h3
              all_goals cases h3
              all_goals exact ⟨rfl, rfl⟩
            exact ⟨h4.1.trans hinv.file, h4.2.trans hinv.startId_eq⟩
          unfold writeHistory
          have hsi : (sh b d t' s1.exitflag s1).startId = startId := hf1.2
          have hsfl : (sh b d t' s1.exitflag s1).file = b.file := by
            show b.file ++ s1.file = b.file
            rw [hf1.1, List.append_nil]
          rw [hhi, hsi, hsfl, hf1.1, hf1.2]
          cases E.opts.history
          · simp only [Bool.false_eq_true, if_false]
            exact ⟨fun _ h => by cases h; exact ⟨t', rfl⟩, fun _ _ h => by cases h⟩
          · have hany : b.file.any (fun g => decide (g.1 = startId)) = false := by
              rw [List.any_eq_false]
              intro g hg
              simpa using hfile g hg
            simp only [if_true, List.any_nil, Bool.false_eq_true, if_false, List.nil_append, hany]
            refine ⟨fun _ h => ?_, fun _ _ h => by cases h⟩
            cases h
            exact ⟨t', rfl⟩
    · simp only [hib, Bool.false_eq_true, if_false]
      exact ⟨fun _ h => (by cases h), fun _ _ h => by cases h; exact ⟨_, rfl⟩⟩

end Fides
