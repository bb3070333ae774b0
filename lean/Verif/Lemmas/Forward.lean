import Verif.Lemmas.Driver

/-! Helper lemmas: running the driver forwards (used for concrete runs). -/

namespace Fides
open Spec
variable {F : Type} [FloatOps F] {n : ℕ}

theorem setup_forward (E : Env F n) (hess0 : Hess0 F) (st : St F n) (raw : RawOut F) (happ : Option (Happ F n)) (fo : Funout F n)
    (hraw : funEval E.nargout E.resfun (E.obj st.evals.length st.x) = .ok raw)
    (hhapp : initialHapp st.happ hess0 raw = .ok happ) (hdim : checkdims n raw = .ok ())
    (hty : raw.typed st.x st.xId = some fo) (hf : allFinite fo.fval fo.grad fo.hess = true) :
    setup E hess0 st = .ok ({ setupState st fo happ with converged := false }, fo) := by
  unfold setup
  simp only [hraw, hhapp, hdim, hty]
  simp only [checkFinite, hf, if_true]
  rfl

theorem trialOut_forward (E : Env F n) (st : St F n) (step : Step F n) (raw : RawOut F) (new : Funout F n)
    (hraw : funEval E.nargout E.resfun (E.obj st.evals.length (trialPoint st step)) = .ok raw)
    (hty : raw.typed (trialPoint st step) st.nextId = some new) : trialOut E st step = .ok new := by
  unfold trialOut evaluate
  simp only
  have : funEval E.nargout E.resfun (E.obj (preIter st).evals.length (trialPoint st step)) = .ok raw := hraw
  simp only [this, hty]

theorem iterate_reject (E : Env F n) (st : St F n) (old : Funout F n) (step : Step F n) (new : Funout F n)
    (hh : E.opts.history = false) (hf : allFinite st.fval st.grad (some st.hess) = true)
    (htr : E.tr st.proposals (trInput E (preIter st)) = .ok step) (hout : trialOut E st step = .ok new)
    (hfn : isFinite new.fval = true → allFinite new.fval new.grad new.hess = true)
    (hrej : (radiusStep E st step new).1 = false) : iterate E st old = .ok (postCheck E st step new, old) := by
  have hf' : allFinite (preIter st).fval (preIter st).grad (some (preIter st).hess) = true := hf
  have htr' : E.tr (preIter st).proposals (trInput E (preIter st)) = .ok step := htr
  unfold iterate
  simp only
  rw [show ({ st with iteration := st.iteration + 1, deltaIter := st.delta } : St F n) = preIter st from rfl]
  simp only [checkFinite, hf, hf', if_true, htr']
  rw [show vadd (vadd (preIter st).x step.s) step.s0 = trialPoint st step from rfl]
  rw [show (preIter st).nextId + 1 - 1 = st.nextId from rfl]
  have he : evaluate E (trialPoint st step) st.nextId
      { preIter st with proposals := (preIter st).proposals + 1, nextId := (preIter st).nextId + 1 } =
      (.ok new, afterEval st step (.ok new)) := by
    have h1 : (evaluate E (trialPoint st step) st.nextId
      { preIter st with proposals := (preIter st).proposals + 1, nextId := (preIter st).nextId + 1 }).1 = .ok new := hout
    rw [Prod.ext_iff]
    refine ⟨h1, ?_⟩
    rw [evaluate_snd, h1]
    rfl
  rw [he]
  simp only
  have hchk : (if isFinite new.fval = true then
      (if allFinite new.fval new.grad new.hess = true then Except.ok (afterEval st step (.ok new))
        else .error (PyErr.runtimeError, { afterEval st step (.ok new) with exitflag := .notFinite })) else
      Except.ok (afterEval st step (.ok new)) : Except (PyErr × St F n) (St F n)) = .ok (afterEval st step (.ok new)) := by
    split
    · rw [if_pos (hfn (by assumption))]
    · rfl
  rw [hchk]
  simp only
  have hrej' : (updateTrRadius E new step (trInput E (preIter st)).dv (afterEval st step (.ok new))).1 = false := hrej
  rw [hrej']
  simp only [Bool.false_eq_true, if_false, hh]
  rfl

theorem iterate_accept (E : Env F n) (st st4 : St F n) (old : Funout F n) (step : Step F n) (new : Funout F n)
    (hh : E.opts.history = false) (hf : allFinite st.fval st.grad (some st.hess) = true)
    (htr : E.tr st.proposals (trInput E (preIter st)) = .ok step) (hout : trialOut E st step = .ok new)
    (hfn : allFinite new.fval new.grad new.hess = true)
    (hacc : (radiusStep E st step new).1 = true) (hu : update E step new old (postCheck E st step new) = .ok st4) :
    iterate E st old = .ok (st4, new) := by
  have hf' : allFinite (preIter st).fval (preIter st).grad (some (preIter st).hess) = true := hf
  have htr' : E.tr (preIter st).proposals (trInput E (preIter st)) = .ok step := htr
  unfold iterate
  simp only
  rw [show ({ st with iteration := st.iteration + 1, deltaIter := st.delta } : St F n) = preIter st from rfl]
  simp only [checkFinite, hf, hf', if_true, htr']
  rw [show vadd (vadd (preIter st).x step.s) step.s0 = trialPoint st step from rfl]
  rw [show (preIter st).nextId + 1 - 1 = st.nextId from rfl]
  have he : evaluate E (trialPoint st step) st.nextId
      { preIter st with proposals := (preIter st).proposals + 1, nextId := (preIter st).nextId + 1 } =
      (.ok new, afterEval st step (.ok new)) := by
    have h1 : (evaluate E (trialPoint st step) st.nextId
      { preIter st with proposals := (preIter st).proposals + 1, nextId := (preIter st).nextId + 1 }).1 = .ok new := hout
    rw [Prod.ext_iff]
    refine ⟨h1, ?_⟩
    rw [evaluate_snd, h1]
    rfl
  rw [he]
  simp only [hfn, if_true, ite_self]
  have hacc' : (updateTrRadius E new step (trInput E (preIter st)).dv (afterEval st step (.ok new))).1 = true := hacc
  rw [hacc']
  simp only [if_true]
  have hu' : update E step new old (trackMinimum new (checkConvergence E step new
    (updateTrRadius E new step (trInput E (preIter st)).dv (afterEval st step (.ok new))).2)) = .ok st4 := hu
  rw [hu']
  simp only [hh, Bool.false_eq_true, if_false]

theorem iterate_accept_error (E : Env F n) (st : St F n) (e : PyErr × St F n) (old : Funout F n) (step : Step F n) (new : Funout F n)
    (hf : allFinite st.fval st.grad (some st.hess) = true)
    (htr : E.tr st.proposals (trInput E (preIter st)) = .ok step) (hout : trialOut E st step = .ok new)
    (hfn : allFinite new.fval new.grad new.hess = true)
    (hacc : (radiusStep E st step new).1 = true) (hu : update E step new old (postCheck E st step new) = .error e) :
    iterate E st old = .error e := by
  have hf' : allFinite (preIter st).fval (preIter st).grad (some (preIter st).hess) = true := hf
  have htr' : E.tr (preIter st).proposals (trInput E (preIter st)) = .ok step := htr
  unfold iterate
  simp only
  rw [show ({ st with iteration := st.iteration + 1, deltaIter := st.delta } : St F n) = preIter st from rfl]
  simp only [checkFinite, hf, hf', if_true, htr']
  rw [show vadd (vadd (preIter st).x step.s) step.s0 = trialPoint st step from rfl]
  rw [show (preIter st).nextId + 1 - 1 = st.nextId from rfl]
  have he : evaluate E (trialPoint st step) st.nextId
      { preIter st with proposals := (preIter st).proposals + 1, nextId := (preIter st).nextId + 1 } =
      (.ok new, afterEval st step (.ok new)) := by
    have h1 : (evaluate E (trialPoint st step) st.nextId
      { preIter st with proposals := (preIter st).proposals + 1, nextId := (preIter st).nextId + 1 }).1 = .ok new := hout
    rw [Prod.ext_iff]
    refine ⟨h1, ?_⟩
    rw [evaluate_snd, h1]
    rfl
  rw [he]
  simp only [hfn, if_true, ite_self]
  have hacc' : (updateTrRadius E new step (trInput E (preIter st)).dv (afterEval st step (.ok new))).1 = true := hacc
  rw [hacc']
  simp only [if_true]
  have hu' : update E step new old (trackMinimum new (checkConvergence E step new
    (updateTrRadius E new step (trInput E (preIter st)).dv (afterEval st step (.ok new))).2)) = .error e := hu
  rw [hu']

theorem update_none (E : Env F n) (step : Step F n) (new old : Funout F n) (st : St F n) (hm : Mat F n n)
    (hn : st.happ = none) (hh : new.hess = some hm) (hb : inBounds E.lb E.ub new.x = true) :
    update E step new old st = .ok (makeNonDegenerate E { st with hess := hm, fval := new.fval, x := new.x, xId := new.xId,
                                                                    grad := new.grad }) := by
  unfold update
  simp only [hn, hh, checkInBounds, hb, if_true]

theorem loop_step (E : Env F n) (fuel : ℕ) (st st1 st2 : St F n) (cur cur2 : Funout F n)
    (hc : checkContinue E st = (true, st1)) (hi : iterate E st1 cur = .ok (st2, cur2)) :
    loop E (fuel + 1) st cur = loop E fuel st2 cur2 := by
  rw [loop]
  simp only [hc, hi]

theorem loop_raise (E : Env F n) (fuel : ℕ) (st st1 : St F n) (cur : Funout F n) (e : PyErr × St F n)
    (hc : checkContinue E st = (true, st1)) (hi : iterate E st1 cur = .error e) :
    loop E (fuel + 1) st cur = .error e := by
  rw [loop]
  simp only [hc, hi]

theorem loop_stop (E : Env F n) (fuel : ℕ) (st st1 : St F n) (cur : Funout F n)
    (hc : checkContinue E st = (false, st1)) : loop E fuel st cur = .ok st1 := by
  rw [loop.eq_def]
  simp only [hc]

theorem minimize_of_head (E : Env F n) (x0 : Vec F n) (startId : String) (hess0 : Hess0 F) (st0 st st' : St F n) (cur : Funout F n)
    (fuel : ℕ) (hn : n ≠ 0) (h : LoopHead E x0 startId hess0 st0 0 st cur) (hl : loop E fuel st cur = .ok st') :
    minimize E fuel x0 startId hess0 st0 = writeHistory E st' := by
  cases h with
  | start st1 _ _ hb hs =>
    unfold minimize
    simp only [if_neg hn]
    have hb' := hb
    unfold startState at hb'
    rw [hb']
    simp only [hs, hl]

theorem minimize_of_head' (E : Env F n) (x0 : Vec F n) (startId : String) (hess0 : Hess0 F) (st0 st st' : St F n) (cur : Funout F n)
    (fuel : ℕ) (hn : n ≠ 0) (h : LoopHead E x0 startId hess0 st0 0 st cur) (e : PyErr) (hl : loop E fuel st cur = .error (e, st')) :
    minimize E fuel x0 startId hess0 st0 = .error (e, st') := by
  cases h with
  | start st1 _ _ hb hs =>
    unfold minimize
    simp only [if_neg hn]
    have hb' := hb
    unfold startState at hb'
    rw [hb']
    simp only [hs, hl]

/-- what `minimize` does from a loop head on -/
theorem minimize_from_head (E : Env F n) (x0 : Vec F n) (startId : String) (hess0 : Hess0 F) (st0 st : St F n) (cur : Funout F n)
    (k : ℕ) (hn : n ≠ 0) (h : LoopHead E x0 startId hess0 st0 k st cur) (fuel : ℕ) :
    minimize E (k + fuel) x0 startId hess0 st0 =
      match loop E fuel st cur with
      | .error e => .error e
      | .ok st => writeHistory E st := by
  induction h generalizing fuel with
  | start st1 st cur hb hs =>
    cases hl : loop E fuel st cur with
    | ok st' => rw [Nat.zero_add]; exact minimize_of_head E x0 startId hess0 st0 st st' cur fuel hn (.start st1 st cur hb hs) hl
    | error e => rw [Nat.zero_add]; exact minimize_of_head' E x0 startId hess0 st0 st e.2 cur fuel hn (.start st1 st cur hb hs) e.1 hl
  | next k st st1 st2 cur cur2 _ hc hi ih =>
    rw [show k + 1 + fuel = k + (fuel + 1) by omega, ih (fuel + 1), loop_step E fuel st st1 st2 cur cur2 hc hi]

end Fides
