import Verif.Spec.Raised
import Verif.Lemmas.Translation

/-! Helper lemmas: a pass on a problem whose objective is increased by a constant mimics the pass on the original one. -/

set_option linter.unusedSectionVars false

namespace Fides
open Num Spec
variable {n : ℕ} {c : ℝ} {E E' : Env Num n}

theorem add_fin_lt (a b : Num) (t : ℝ) : lt (a + fin t) (b + fin t) = lt a b := by
  cases a <;> cases b <;> simp <;> rfl

/-- results with raised states -/
noncomputable def rsU (c : ℝ) : Except (PyErr × St Num n) (St Num n) → Except (PyErr × St Num n) (St Num n)
  | .error e => .error (e.1, raisedState c e.2)
  | .ok s => .ok (raisedState c s)

noncomputable def rsR (c : ℝ) : Except (PyErr × St Num n) (St Num n × Funout Num n) → Except (PyErr × St Num n) (St Num n × Funout Num n)
  | .error e => .error (e.1, raisedState c e.2)
  | .ok s => .ok (raisedState c s.1, raisedOut c s.2)

noncomputable def rsRaw (c : ℝ) (o : RawOut Num) : RawOut Num := { o with fval := raisedVal c o.fval }

theorem rs_funEval (k : ℕ) (r : Ret Num) : funEval k false (raisedRet c r) = (funEval k false r).map (rsRaw c) := by
  cases r with
  | raised => rfl
  | single v => rfl
  | tuple vals =>
    rcases vals with _ | ⟨f, _ | ⟨g, _ | ⟨h, _ | ⟨i, l⟩⟩⟩⟩
    all_goals
      unfold raisedRet funEval
      simp only [List.length_nil, List.length_cons, Bool.false_eq_true, if_false]
      split
      · rfl
      · split <;> rfl

theorem rs_typed (raw : RawOut Num) (x : Vec Num n) (k : ℕ) : (rsRaw c raw).typed x k = (raw.typed x k).map (raisedOut c) := by
  rcases raw with ⟨f, g, h, r, s⟩
  unfold RawOut.typed rsRaw
  cases f with
  | scalar f =>
    simp only [raisedVal]
    cases g.toVec? n with
    | none => rfl
    | some g =>
      cases h with
      | none => rfl
      | scalar h => simp only; split <;> rfl
      | arr a b => simp only; split <;> rfl
      | other => simp only; split <;> rfl
  | none => rfl
  | arr a b => rfl
  | other => rfl

theorem rs_checkdims (m : ℕ) (raw : RawOut Num) : checkdims m (rsRaw c raw) = checkdims m raw := by
  rcases raw with ⟨f, g, h, r, s⟩
  cases f <;> rfl

theorem rs_makeNonDegenerate (h : RaisedProblem c E E') (st : St Num n) : makeNonDegenerate E' (raisedState c st) = raisedState c (makeNonDegenerate E st) := by
  unfold makeNonDegenerate
  rw [h.lb, h.ub]
  rfl

theorem rs_trackMinimum (fo : Funout Num n) (st : St Num n) : trackMinimum (raisedOut c fo) (raisedState c st) = raisedState c (trackMinimum fo st) := by
  unfold trackMinimum
  have h1 : (raisedOut c fo).fval = fo.fval + fin c := rfl
  have h2 : (raisedState c st).fvalMin = st.fvalMin + fin c := rfl
  rw [h1, h2, add_fin_finite, add_fin_lt]
  split <;> rfl

theorem rs_trInput (h : RaisedProblem c E E') (st : St Num n) : trInput E' (raisedState c st) = trInput E st := by
  unfold trInput
  rw [h.lb, h.ub, h.opts]
  rfl

theorem rs_updateTrRadius (h : RaisedProblem c E E') (fo : Funout Num n) (step : Step Num n) (dv : Vec Num n) (st : St Num n) :
    updateTrRadius E' (raisedOut c fo) step dv (raisedState c st) = ((updateTrRadius E fo step dv st).1, raisedState c (updateTrRadius E fo step dv st).2) := by
  unfold updateTrRadius
  rw [h.opts]
  have e1 : (raisedOut c fo).fval = fo.fval + fin c := rfl
  have e2 : (raisedOut c fo).grad = fo.grad := rfl
  have e6 : (raisedState c st).fval = st.fval + fin c := rfl
  have e7 : (raisedState c st).deltaIter = st.deltaIter := rfl
  simp only [e1, e2, e6, e7, add_fin_finite, add_fin_sub]
  cases isFinite fo.fval
  · rfl
  · generalize (if le (-step.qpval) (lit 0) = true then (lit 0 : Num) else _) = r
    simp only [Bool.not_true, Bool.false_eq_true, if_false]
    cases (le E.opts.eta r && !lt (norm (vadd step.ss step.ss0)) (st.deltaIter * lit (9 / 10)))
    · cases le r E.opts.mu
      · cases (lt E.opts.mu r && lt r E.opts.eta) <;> rfl
      · rfl
    · rfl

theorem zero_mul_abs_finite (a : Num) (t : ℝ) (h : isFinite a = true) : fin 0 * FloatOps.abs (a + fin t) = fin 0 * FloatOps.abs a := by
  cases a <;> simp at h ⊢

theorem rs_checkConvergence (h : RaisedProblem c E E') (hf : E.opts.frtol = fin 0) (hg : E.opts.grtol = fin 0) (step : Step Num n) (fo : Funout Num n) (st : St Num n)
    (hfin : isFinite st.fval = true) : checkConvergence E' step (raisedOut c fo) (raisedState c st) = raisedState c (checkConvergence E step fo st) := by
  unfold checkConvergence
  rw [h.opts, hf, hg]
  have e1 : (raisedOut c fo).fval = fo.fval + fin c := rfl
  have e2 : (raisedOut c fo).grad = fo.grad := rfl
  have e5 : (raisedState c st).fval = st.fval + fin c := rfl
  have e6 : (raisedState c st).trRatio = st.trRatio := rfl
  have e7 : (raisedState c st).iteration = st.iteration := rfl
  simp only [e1, e2, e5, e6, e7, add_fin_sub, zero_mul_abs_finite _ _ hfin]
  cases (lt E.opts.mu st.trRatio && lt (FloatOps.abs (fo.fval - st.fval)) (E.opts.fatol + fin 0 * FloatOps.abs st.fval))
  · cases (decide (1 < st.iteration) && lt (norm (vadd step.ss step.ss0)) E.opts.xtol)
    · cases le (norm fo.grad) E.opts.gatol
      · cases le (norm fo.grad) (fin 0 * FloatOps.abs st.fval) <;> rfl
      · rfl
    · rfl
  · rfl

theorem rs_checkContinue (h : RaisedProblem c E E') (st : St Num n) :
    checkContinue E' (raisedState c st) = ((checkContinue E st).1, raisedState c (checkContinue E st).2) := by
  unfold checkContinue
  rw [h.opts, h.clock]
  have e1 : (raisedState c st).converged = st.converged := rfl
  have e2 : (raisedState c st).iteration = st.iteration := rfl
  have e3 : (raisedState c st).ticks = st.ticks := rfl
  have e4 : (raisedState c st).starttime = st.starttime := rfl
  have e5 : (raisedState c st).delta = st.delta := rfl
  simp only [e1, e2, e3, e4, e5]
  cases st.converged
  · by_cases h2 : E.opts.maxiter ≤ (st.iteration : Int)
    · simp only [h2, Bool.false_eq_true, if_false, if_true]; rfl
    · simp only [h2, Bool.false_eq_true, if_false]
      generalize (if st.iteration = 0 then 1 else st.iteration) = m
      cases lt (E.opts.maxtime - (E.clock st.ticks - st.starttime)) ((E.clock st.ticks - st.starttime) / lit ((m : ℕ) : ℚ))
      · cases lt st.delta spacing1 <;> rfl
      · rfl
  · rfl

theorem rs_updateHapp (st : St Num n) (g : Happ Num n) (step : Step Num n) (new old : Funout Num n) :
    updateHapp (raisedState c st) g step (raisedOut c new) (raisedOut c old) = updateHapp st g step new old := rfl

theorem rs_update (h : RaisedProblem c E E') (step : Step Num n) (new old : Funout Num n) (st : St Num n) :
    update E' step (raisedOut c new) (raisedOut c old) (raisedState c st) = rsU c (update E step new old st) := by
  unfold update
  have e1 : (raisedState c st).happ = st.happ := rfl
  have e2 : (raisedOut c new).hess = new.hess := rfl
  have e3 : (raisedOut c new).x = new.x := rfl
  simp only [e1, e2, e3, rs_updateHapp, checkInBounds, h.lb, h.ub]
  cases st.happ with
  | none =>
    cases new.hess with
    | none => rfl
    | some m =>
      cases inBounds E.lb E.ub new.x
      · rfl
      · exact congrArg Except.ok (rs_makeNonDegenerate h { st with hess := m, happ := none, fval := new.fval, x := new.x, xId := new.xId, grad := new.grad })
  | some g =>
    simp only
    cases updateHapp st g step new old with
    | error er => rfl
    | ok g' =>
      cases inBounds E.lb E.ub new.x
      · rfl
      · exact congrArg Except.ok (rs_makeNonDegenerate h { st with hess := g'.getMat, happ := some g', fval := new.fval, x := new.x, xId := new.xId, grad := new.grad })

/-- a row with the entry of "fval" raised -/
noncomputable def rsRow (c : ℝ) (row : List (String × HVal Num)) : List (String × HVal Num) :=
  row.map fun e => if e.1 = "fval" then (e.1, raisedEntry c e.2) else e

theorem rs_historyRow (h : RaisedProblem c E E') (acc : Bool) (step : Step Num n) (fo : Funout Num n) (th : Num) (sh : Mat Num n n) (st : St Num n) :
    historyRow E' acc step (raisedOut c fo) th sh (raisedState c st) = (historyRow E acc step fo th sh st).map (rsRow c) := by
  unfold historyRow
  rw [h.evs, h.cond]
  have e1 : (raisedState c st).happ = st.happ := rfl
  have e2 : (raisedState c st).hess = st.hess := rfl
  have e3 : (raisedState c st).trRatio = st.trRatio := rfl
  have e4 : (raisedState c st).deltaIter = st.deltaIter := rfl
  have e5 : (raisedState c st).grad = st.grad := rfl
  have e6 : (raisedState c st).iterSinceTr = st.iterSinceTr := rfl
  have e7 : (raisedOut c fo).fval = fo.fval + fin c := rfl
  simp only [e1, e2, e3, e4, e5, e6, e7]
  cases E.evs st.hess with
  | error e => rfl
  | ok r =>
    simp only
    split
    · rfl
    · split
      · rfl
      · cases E.cond st.hess with
        | error e => rfl
        | ok ch =>
          simp only
          cases E.cond sh with
          | error e => rfl
          | ok csh => simp [Except.map, rsRow, raisedEntry]

theorem rs_append (h : History Num) (k : String) (v : HVal Num) :
    raisedHist c (h.append k v) = (raisedHist c h).append k (if k = "fval" then raisedEntry c v else v) := by
  induction h with
  | nil =>
    by_cases hk : k = "fval" <;> simp [History.append, raisedHist, hk]
  | cons e t ih =>
    rcases e with ⟨k', l⟩
    by_cases hk : k' = k
    · subst hk
      by_cases hf : k' = "fval" <;> simp [History.append, raisedHist, hf]
    · have e1 : History.append ((k', l) :: t) k v = (k', l) :: History.append t k v := by
        rw [History.append, if_neg hk]
      rw [e1]
      have e2 : ∀ u : History Num, raisedHist c ((k', l) :: u) = (k', if k' = "fval" then l.map (raisedEntry c) else l) :: raisedHist c u := by
        intro u
        by_cases hf : k' = "fval" <;> simp [raisedHist, hf]
      rw [e2, e2, History.append, if_neg hk, ih]

theorem rs_appendRow (h : History Num) (row : List (String × HVal Num)) : raisedHist c (appendRow h row) = appendRow (raisedHist c h) (rsRow c row) := by
  unfold appendRow rsRow
  induction row generalizing h with
  | nil => rfl
  | cons e t ih =>
    simp only [List.foldl_cons, List.map_cons]
    rw [ih, rs_append]
    split <;> rfl

theorem rs_evaluate (h : RaisedProblem c E E') (hres : E.resfun = false) (x : Vec Num n) (k : ℕ) (st : St Num n) :
    (evaluate E' x k (raisedState c st)).1 = (evaluate E x k st).1.map (raisedOut c) := by
  unfold evaluate
  have e1 : (raisedState c st).evals.length = st.evals.length := List.length_map _
  rw [h.nargout, h.resfun, hres]
  simp only [e1, h.obj, rs_funEval]
  cases funEval E.nargout false (E.obj st.evals.length x) with
  | error e => rfl
  | ok raw =>
    simp only [Except.map, rs_typed]
    cases raw.typed x k <;> rfl

theorem rs_preIter (st : St Num n) : preIter (raisedState c st) = raisedState c (preIter st) := rfl

theorem rs_trialOut (h : RaisedProblem c E E') (hres : E.resfun = false) (st : St Num n) (step : Step Num n) :
    trialOut E' (raisedState c st) step = (trialOut E st step).map (raisedOut c) := by
  unfold trialOut
  exact rs_evaluate h hres _ _ { preIter st with proposals := st.proposals + 1, nextId := st.nextId + 1 }

theorem rs_afterEval (st : St Num n) (step : Step Num n) (out : Except PyErr (Funout Num n)) :
    afterEval (raisedState c st) step (out.map (raisedOut c)) = raisedState c (afterEval st step out) := rfl

theorem rs_radiusStep (h : RaisedProblem c E E') (st : St Num n) (step : Step Num n) (new : Funout Num n) :
    radiusStep E' (raisedState c st) step (raisedOut c new) = ((radiusStep E st step new).1, raisedState c (radiusStep E st step new).2) := by
  unfold radiusStep
  rw [rs_preIter, rs_trInput h, show (Except.ok (raisedOut c new) : Except PyErr (Funout Num n)) = (Except.ok new : Except PyErr (Funout Num n)).map (raisedOut c) from rfl,
    rs_afterEval, ← rs_updateTrRadius h]

theorem radiusStep_fval (E : Env Num n) (st : St Num n) (step : Step Num n) (new : Funout Num n) : (radiusStep E st step new).2.fval = st.fval := by
  obtain ⟨r, d, i, m, h⟩ := updateTrRadius_frame E new step (trInput E (preIter st)).dv (afterEval st step (.ok new))
  unfold radiusStep
  rw [h]
  rfl

theorem rs_postCheck (h : RaisedProblem c E E') (hf : E.opts.frtol = fin 0) (hg : E.opts.grtol = fin 0) (st : St Num n) (step : Step Num n) (new : Funout Num n)
    (hfin : isFinite st.fval = true) : postCheck E' (raisedState c st) step (raisedOut c new) = raisedState c (postCheck E st step new) := by
  unfold postCheck
  rw [rs_radiusStep h, rs_checkConvergence h hf hg _ _ _ (by rw [radiusStep_fval]; exact hfin), rs_trackMinimum]

theorem rs_finish (h : RaisedProblem c E E') (hf : E.opts.frtol = fin 0) (hg : E.opts.grtol = fin 0) (st : St Num n) (old : Funout Num n) (step : Step Num n) (new : Funout Num n)
    (hfin : isFinite st.fval = true) : finish E' (raisedState c st) (raisedOut c old) step (raisedOut c new) = rsR c (finish E st old step new) := by
  unfold finish
  rw [rs_radiusStep h, rs_postCheck h hf hg _ _ _ hfin, rs_update h, h.opts, rs_preIter, rs_trInput h]
  have e3 : (if (radiusStep E st step new).1 = true then rsU c (update E step new old (postCheck E st step new)) else .ok (raisedState c (postCheck E st step new))) =
      rsU c (if (radiusStep E st step new).1 = true then update E step new old (postCheck E st step new) else .ok (postCheck E st step new)) := by
    split <;> rfl
  simp only [e3]
  cases (if (radiusStep E st step new).1 = true then update E step new old (postCheck E st step new) else .ok (postCheck E st step new)) with
  | error e => rfl
  | ok s =>
    simp only [rsU, rs_historyRow h]
    cases E.opts.history
    · simp only [Bool.false_eq_true, if_false, rsR]
      cases (radiusStep E st step new).1 <;> rfl
    · simp only [if_true]
      cases historyRow E (radiusStep E st step new).1 step new (trInput E (preIter st)).theta (trInput E (preIter st)).prob.shess s with
      | error e => rfl
      | ok row =>
        have e4 : ({ raisedState c s with history := appendRow (raisedState c s).history (rsRow c row) } : St Num n) = raisedState c { s with history := appendRow s.history row } := by
          unfold raisedState
          simp only [rs_appendRow]
        simp only [rsR, Except.map, e4]
        cases (radiusStep E st step new).1 <;> rfl

theorem rs_allFinite (f : Num) (g : Vec Num n) (m : Option (Mat Num n n)) : allFinite (f + fin c) g m = allFinite f g m := by
  unfold allFinite
  rw [add_fin_finite]

theorem rs_iterate (h : RaisedProblem c E E') (hres : E.resfun = false) (hf : E.opts.frtol = fin 0) (hg : E.opts.grtol = fin 0) (st : St Num n) (old : Funout Num n) :
    iterate E' (raisedState c st) (raisedOut c old) = rsR c (iterate E st old) := by
  rw [iterate_eq, iterate_eq]
  have e1 : allFinite (raisedState c st).fval (raisedState c st).grad (some (raisedState c st).hess) = allFinite st.fval st.grad (some st.hess) := rs_allFinite _ _ _
  have e2 : (raisedState c st).proposals = st.proposals := rfl
  rw [e1, e2, rs_preIter, rs_trInput h, h.tr]
  cases hfin : allFinite st.fval st.grad (some st.hess)
  · rfl
  · have hfin' : isFinite st.fval = true := by
      unfold allFinite at hfin
      simp only [Bool.and_eq_true] at hfin
      exact hfin.1.1
    simp only [if_true]
    cases E.tr st.proposals (trInput E (preIter st)) with
    | error x => rfl
    | ok step =>
      simp only [rs_trialOut h hres]
      cases trialOut E st step with
      | error x =>
        simp only [Except.map]
        exact congrArg (fun s : St Num n => Except.error (x, s)) (rs_afterEval st step (.error x))
      | ok new =>
        simp only [Except.map]
        have e3 : (isFinite (raisedOut c new).fval && !allFinite (raisedOut c new).fval (raisedOut c new).grad (raisedOut c new).hess) =
          (isFinite new.fval && !allFinite new.fval new.grad new.hess) := by
          show (isFinite (new.fval + fin c) && !allFinite (new.fval + fin c) new.grad new.hess) = _
          rw [add_fin_finite, rs_allFinite]
        rw [e3]
        cases (isFinite new.fval && !allFinite new.fval new.grad new.hess)
        · simp only [Bool.false_eq_true, if_false]
          exact rs_finish h hf hg st old step new hfin'
        · exact congrArg (fun s : St Num n => Except.error (PyErr.runtimeError, { s with exitflag := .notFinite })) (rs_afterEval st step (.ok new))

theorem rs_loop (h : RaisedProblem c E E') (hres : E.resfun = false) (hf : E.opts.frtol = fin 0) (hg : E.opts.grtol = fin 0) (fuel : ℕ) (st : St Num n) (old : Funout Num n) :
    loop E' fuel (raisedState c st) (raisedOut c old) = rsU c (loop E fuel st old) := by
  induction fuel generalizing st old with
  | zero =>
    rw [loop, loop, rs_checkContinue h]
    rcases checkContinue E st with ⟨b, s⟩
    cases b <;> rfl
  | succ k ih =>
    rw [loop, loop, rs_checkContinue h]
    rcases checkContinue E st with ⟨b, s⟩
    cases b
    · rfl
    · simp only [rs_iterate h hres hf hg]
      cases iterate E s old with
      | error e => rfl
      | ok r => exact ih r.1 r.2

theorem rs_setup (h : RaisedProblem c E E') (hres : E.resfun = false) (hess0 : Hess0 Num) (st : St Num n) : setup E' hess0 (raisedState c st) = rsR c (setup E hess0 st) := by
  unfold setup
  have e1 : (raisedState c st).evals.length = st.evals.length := List.length_map _
  have e2 : (raisedState c st).x = st.x := rfl
  have e3 : (raisedState c st).happ = st.happ := rfl
  have e4 : (raisedState c st).xId = st.xId := rfl
  rw [h.nargout, h.resfun, hres]
  simp only [e1, e2, e3, e4, h.obj, rs_funEval]
  cases funEval E.nargout false (E.obj st.evals.length st.x) with
  | error e => rfl
  | ok raw =>
    simp only [Except.map]
    have e5 : initialHapp st.happ hess0 (rsRaw c raw) = initialHapp st.happ hess0 raw := rfl
    rw [e5]
    cases initialHapp st.happ hess0 raw with
    | error e => rfl
    | ok ha =>
      simp only [rs_checkdims]
      cases checkdims n raw with
      | error e => rfl
      | ok u =>
        simp only [rs_typed]
        cases raw.typed st.x st.xId with
        | none => rfl
        | some fo =>
          have hm : (raisedState c st).fvalMin = st.fvalMin + fin c := rfl
          have hf' : (raisedOut c fo).fval = fo.fval + fin c := rfl
          have hg' : (raisedOut c fo).grad = fo.grad := rfl
          have hh' : (raisedOut c fo).hess = fo.hess := rfl
          cases hb : (isFinite fo.fval && lt fo.fval st.fvalMin) <;> cases hf : allFinite fo.fval fo.grad fo.hess <;>
            simp only [Option.map, trackMinimum, checkFinite, hm, hf', hg', hh', add_fin_finite, add_fin_lt, rs_allFinite, hb, hf, rsR, if_true, Bool.false_eq_true, if_false] <;> rfl

theorem rs_writeHistory (h : RaisedProblem c E E') (st : St Num n) : writeHistory E' (raisedState c st) = rsU c (writeHistory E st) := by
  unfold writeHistory
  rw [h.opts]
  have e1 : ((raisedState c st).file.any fun g => decide (g.1 = (raisedState c st).startId)) = st.file.any fun g => decide (g.1 = st.startId) := by
    show (List.map _ st.file).any _ = _
    rw [List.any_map]
    rfl
  rw [e1]
  cases E.opts.history
  · rfl
  · simp only [if_true]
    split
    · rfl
    · simp [rsU, raisedState]

theorem rs_minimize (h : RaisedProblem c E E') (hres : E.resfun = false) (hf : E.opts.frtol = fin 0) (hg : E.opts.grtol = fin 0) (fuel : ℕ) (x0 : Vec Num n) (startId : String)
    (hess0 : Hess0 Num) (st : St Num n) : minimize E' fuel x0 startId hess0 (raisedState c st) = rsU c (minimize E fuel x0 startId hess0 st) := by
  have e0 : ({ reset E' startId (raisedState c st) with x := x0, xId := (reset E' startId (raisedState c st)).nextId, nextId := (reset E' startId (raisedState c st)).nextId + 1 } : St Num n) =
      raisedState c { reset E startId st with x := x0, xId := (reset E startId st).nextId, nextId := (reset E startId st).nextId + 1 } := by
    unfold reset
    rw [h.clock, h.opts]
    rfl
  unfold minimize
  simp only [e0]
  split
  · rfl
  · rw [rs_makeNonDegenerate h]
    have e1 : ∀ s : St Num n, (raisedState c s).x = s.x := fun _ => rfl
    have e2 : ∀ s : St Num n, checkInBounds E' s.x (raisedState c s) = rsU c (checkInBounds E s.x s) := by
      intro s
      unfold checkInBounds
      rw [h.lb, h.ub]
      split <;> rfl
    rw [e1, e2]
    cases checkInBounds E (makeNonDegenerate E { reset E startId st with x := x0, xId := (reset E startId st).nextId, nextId := (reset E startId st).nextId + 1 }).x
      (makeNonDegenerate E { reset E startId st with x := x0, xId := (reset E startId st).nextId, nextId := (reset E startId st).nextId + 1 }) with
    | error e => rfl
    | ok s =>
      simp only [rsU, rs_setup h hres]
      cases setup E hess0 s with
      | error e => rfl
      | ok r =>
        simp only [rsR, rs_loop h hres hf hg]
        cases loop E fuel r.1 r.2 with
        | error e => rfl
        | ok s' => simp only [rsU, rs_writeHistory h]

end Fides
