import Verif.Model.Memory
import Verif.Lemmas.Driver

/-! Helper lemmas: the loop body of the model with array objects, in terms of its parts. -/

namespace Fides
open Spec
variable {F : Type} [FloatOps F] {n : ℕ}

/-- the evaluation of the trial point, with the array as the objective left it -/
def memNew (M : Memory F n) (st : St F n) (step : Step F n) (new : Funout F n) : Funout F n :=
  { new with x := M.arg st.evals.length (trialPoint st step) }
/-- the state after the evaluation of the trial point -/
def memAfter (E : Env F n) (M : Memory F n) (st : St F n) (h : Held) (step : Step F n) (new : Funout F n) : St F n :=
  writeGrads E M st.evals.length new h (afterEval st step (.ok new))
/-- result of `update_tr_radius` -/
def memRadius (E : Env F n) (M : Memory F n) (st : St F n) (h : Held) (step : Step F n) (new : Funout F n) : Bool × St F n :=
  updateTrRadius E (memNew M st step new) step (trInput E (preIter st)).dv (memAfter E M st h step new)
/-- state after `track_minimum` -/
def memPost (E : Env F n) (M : Memory F n) (st : St F n) (h : Held) (step : Step F n) (new : Funout F n) : St F n :=
  trackMinimum (memNew M st step new) (checkConvergence E step (memNew M st step new) (memRadius E M st h step new).2)
/-- the calls whose arrays are held after the pass -/
def memHeld (E : Env F n) (M : Memory F n) (st : St F n) (h : Held) (step : Step F n) (new : Funout F n) : Held :=
  { current := if (memRadius E M st h step new).1 then st.evals.length else h.current
    best := if isFinite new.fval && lt new.fval (checkConvergence E step (memNew M st step new) (memRadius E M st h step new).2).fvalMin
      then st.evals.length else h.best }

/-- the end of the loop body -/
def memFinish (E : Env F n) (M : Memory F n) (st : St F n) (old : Funout F n) (h : Held) (step : Step F n) (new : Funout F n) :
    Except (PyErr × St F n) (St F n × Funout F n × Held) :=
  let old' := writeRes M st.evals.length new h old
  match (if (memRadius E M st h step new).1 then update E step (memNew M st step new) old' (memPost E M st h step new)
      else .ok (memPost E M st h step new)) with
  | .error e => .error e
  | .ok s =>
    if E.opts.history then
      match historyRow E (memRadius E M st h step new).1 step (memNew M st step new) (trInput E (preIter st)).theta
          (trInput E (preIter st)).prob.shess s with
      | .error e => .error (e, s)
      | .ok row => .ok ({ s with history := appendRow s.history row }, if (memRadius E M st h step new).1 then memNew M st step new else old',
          memHeld E M st h step new)
    else .ok (s, if (memRadius E M st h step new).1 then memNew M st step new else old', memHeld E M st h step new)

theorem iterateMem_eq (E : Env F n) (M : Memory F n) (st : St F n) (old : Funout F n) (h : Held) : iterateMem E M st old h =
    if allFinite st.fval st.grad (some st.hess) then
      match E.tr st.proposals (trInput E (preIter st)) with
      | .error e => .error (e, preIter st)
      | .ok step =>
        match trialOut E st step with
        | .error e => .error (e, afterEval st step (.error e))
        | .ok new =>
          if isFinite new.fval && !allFinite new.fval new.grad new.hess then
            .error (.runtimeError, { memAfter E M st h step new with exitflag := .notFinite })
          else memFinish E M st old h step new
    else .error (.runtimeError, { preIter st with exitflag := .notFinite }) := by
  unfold iterateMem
  simp only
  rw [show ({ st with iteration := st.iteration + 1, deltaIter := st.delta } : St F n) = preIter st from rfl]
  by_cases hf : allFinite st.fval st.grad (some st.hess) = true
  · have hf' : allFinite (preIter st).fval (preIter st).grad (some (preIter st).hess) = true := hf
    have hp : (preIter st).proposals = st.proposals := rfl
    simp only [checkFinite, hf, hf', if_true, hp]
    cases E.tr st.proposals (trInput E (preIter st)) with
    | error e => rfl
    | ok step =>
      simp only
      rw [show vadd (vadd (preIter st).x step.s) step.s0 = trialPoint st step from rfl]
      rw [show (preIter st).nextId + 1 - 1 = st.nextId from rfl]
      have he : evaluate E (trialPoint st step) st.nextId
          { preIter st with proposals := st.proposals + 1, nextId := (preIter st).nextId + 1 } =
          (trialOut E st step, afterEval st step (trialOut E st step)) := by
        have h1 : (evaluate E (trialPoint st step) st.nextId
          { preIter st with proposals := (preIter st).proposals + 1, nextId := (preIter st).nextId + 1 }).1 = trialOut E st step := rfl
        rw [Prod.ext_iff]
        refine ⟨h1, ?_⟩
        rw [evaluate_snd, ← h1]
        rfl
      rw [he]
      cases trialOut E st step with
      | error e => rfl
      | ok new =>
        unfold memFinish memHeld
        simp only
        cases hb : isFinite new.fval
        · simp only [Bool.false_and, Bool.false_eq_true, if_false]
          rfl
        · cases ha : allFinite new.fval new.grad new.hess
          · simp only [Bool.true_and, Bool.not_false, if_true, Bool.false_eq_true, if_false]
            rfl
          · simp only [Bool.true_and, Bool.not_true, if_true, Bool.false_eq_true, if_false]
            rfl
  · have hf' : ¬ allFinite (preIter st).fval (preIter st).grad (some (preIter st).hess) = true := hf
    simp only [checkFinite, if_neg hf, if_neg hf']

end Fides
