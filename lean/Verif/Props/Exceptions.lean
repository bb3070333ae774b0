import Verif.Spec.Exceptions
import Verif.Lemmas.HeadInv
import Verif.Lemmas.Calls
import Verif.Props.Run
import Verif.Props.History
import Verif.Lemmas.Demo

/-!
# C82: what is left when `minimize` raises
-/

set_option linter.unusedSectionVars false

namespace Fides
open Spec
variable {F : Type} [FloatOps F] {n : ℕ} [LawfulFloat F] (E : Env F n) (x0 : Vec F n) (startId : String) (hess0 : Hess0 F) (st0 : St F n)

/-- the attributes at a loop head -/
theorem head_usable (k : ℕ) (st : St F n) (cur : Funout F n) (hh : LoopHead E x0 startId hess0 st0 k st cur) :
    ∃ done, st.evals = done ++ st0.evals ∧ Usable E done st := by
  have hi := headInv E x0 startId hess0 st0 k st cur hh
  obtain ⟨l, fo0, hl, hlen, hfo0, hfofin, hall, hmem, hlt0, b, hmin⟩ := hi.evals
  refine ⟨l ++ [{ arg := nudge E.lb E.ub x0, out := .ok fo0 }], by simp [hl], ?_, ⟨b, hmin.best, hmin.fval, hmin.grad, hmin.x⟩,
    ⟨cur, hmem, (finiteEval_iff cur).mpr hi.finite, hi.bounds, hi.fval, hi.grad, ?_⟩⟩
  · intro r hr
    rcases List.mem_append.mp hr with hr | hr
    · obtain ⟨fo, h, -⟩ := hall r hr; exact ⟨fo, h⟩
    · rw [List.mem_singleton] at hr; subst hr; exact ⟨fo0, rfl⟩
  · rcases hi.x with ⟨-, h⟩ | h | h
    exacts [Or.inl h, Or.inl h, Or.inr h]

/-- only these attributes matter -/
theorem usable_congr {E : Env F n} {done : List (EvalRec F n)} {st st' : St F n} (h : Usable E done st) (h1 : st'.xMin = st.xMin) (h2 : st'.fvalMin = st.fvalMin)
    (h3 : st'.gradMin = st.gradMin) (h4 : st'.x = st.x) (h5 : st'.fval = st.fval) (h6 : st'.grad = st.grad) : Usable E done st' := by
  obtain ⟨a, b, c⟩ := h
  refine ⟨a, ?_, ?_⟩
  · rw [h1, h2, h3]; exact b
  · rw [h4, h5, h6]; exact c

/-- after a trial evaluation that was neither refused nor non-finite, before the step is carried out -/
theorem post_usable (k : ℕ) (st : St F n) (cur : Funout F n) (hh : LoopHead E x0 startId hess0 st0 k st cur) (step : Step F n) (new : Funout F n)
    (hnx : new.x = trialPoint st step) (hnxi : new.xId = st.nextId) :
    ∃ done b, (postCheck E { st with ticks := st.ticks + 1 } step new).evals = { arg := new.x, out := .ok new } :: done ++ st0.evals ∧
      Usable E ({ arg := new.x, out := .ok new } :: done) (postCheck E { st with ticks := st.ticks + 1 } step new) ∧
      MinInv E (postCheck E { st with ticks := st.ticks + 1 } step new) ({ arg := new.x, out := .ok new } :: done) b ∧
      ((postCheck E { st with ticks := st.ticks + 1 } step new).xMinId = new.xId → b = new) := by
  have hi := headInv E x0 startId hess0 st0 k st cur hh
  obtain ⟨l, fo0, hl, hlen, hfo0, hfofin, hall, hmem, hlt0, b, hmin⟩ := hi.evals
  obtain ⟨r, d, i, m, h1⟩ := updateTrRadius_frame E new step (trInput E (preIter { st with ticks := st.ticks + 1 })).dv
    (afterEval { st with ticks := st.ticks + 1 } step (.ok new))
  obtain ⟨ef, cv, h2⟩ := checkConvergence_frame E step new (radiusStep E { st with ticks := st.ticks + 1 } step new).2
  obtain ⟨r', d', i', m', ef', c', mx, mxi, mf, mg, hpf⟩ := postCheck_frame E { st with ticks := st.ticks + 1 } step new
  have hlt : b.xId < new.xId := by
    rw [← hmin.id, hnxi]; exact hmin.idLt
  have hM : MinInv E (postCheck E { st with ticks := st.ticks + 1 } step new)
      ({ arg := new.x, out := .ok new } :: (l ++ [{ arg := nudge E.lb E.ub x0, out := .ok fo0 }]))
      (if isFinite new.fval && lt new.fval b.fval then new else b) ∧
      ((postCheck E { st with ticks := st.ticks + 1 } step new).xMinId = new.xId → (if isFinite new.fval && lt new.fval b.fval then new else b) = new) := by
    unfold postCheck
    rw [h2]
    unfold radiusStep
    rw [h1]
    rw [trackMinimum_eq _ _ b (by exact hmin.fval)]
    have hb := firstBest_cons _ _ new hmin.best
    by_cases hcnd : (isFinite new.fval && lt new.fval b.fval) = true
    · simp only [if_pos hcnd] at hb ⊢
      refine ⟨⟨hb, rfl, rfl, rfl, Or.inl rfl, ?_⟩, fun _ => trivial⟩
      show new.xId < st.nextId + 1
      rw [hnxi]; exact Nat.lt_succ_self _
    · simp only [if_neg hcnd] at hb ⊢
      refine ⟨⟨hb, hmin.fval, hmin.grad, hmin.id, hmin.x, Nat.lt_succ_of_lt hmin.idLt⟩, ?_⟩
      intro heq
      exfalso
      have : st.xMinId = new.xId := heq
      rw [hmin.id] at this
      omega
  refine ⟨l ++ [{ arg := nudge E.lb E.ub x0, out := .ok fo0 }], _, ?_, ⟨?_, ⟨_, hM.1.best, hM.1.fval, hM.1.grad, hM.1.x⟩,
    ⟨cur, List.mem_cons_of_mem _ hmem, (finiteEval_iff cur).mpr hi.finite, hi.bounds, ?_, ?_, ?_⟩⟩, hM.1, hM.2⟩
  · rw [hpf]
    show _ :: st.evals = _
    rw [hl, hnx]; simp; rfl
  · intro r hr
    rcases List.mem_cons.mp hr with rfl | hr
    · exact ⟨new, rfl⟩
    rcases List.mem_append.mp hr with hr | hr
    · obtain ⟨fo, h, -⟩ := hall r hr; exact ⟨fo, h⟩
    · rw [List.mem_singleton] at hr; subst hr; exact ⟨fo0, rfl⟩
  · rw [hpf]; exact hi.fval
  · rw [hpf]; exact hi.grad
  · rw [hpf]
    rcases hi.x with ⟨-, h⟩ | h | h
    exacts [Or.inl h, Or.inl h, Or.inr h]

/-- C82: when `minimize` raises after a first evaluation with finite results — whatever the exception, whether raised by the objective, by a
check, by the proposal computation, by the Hessian approximation or by the history recording — `x_min`, `fval_min`, `grad_min` are the best point
of all evaluations made in this run (not counting the call that made the run fail), and `x`, `fval`, `grad` belong to one of them. -/
theorem C82_usable (fuel : ℕ) (st' : St F n) (e : PyErr) (h : minimize E fuel x0 startId hess0 st0 = .error (e, st'))
    (l : List (EvalRec F n)) (first : EvalRec F n) (fo0 : Funout F n) (hl : st'.evals = l ++ first :: st0.evals) (h0 : first.out = .ok fo0)
    (hfin : FiniteEval fo0) :
    ∃ done, (st'.evals = done ++ st0.evals ∨ ∃ r, FailedWith e r ∧ st'.evals = r :: (done ++ st0.evals)) ∧ Usable E done st' := by
  have hne : st'.evals ≠ st0.evals := by
    intro hc
    rw [hc] at hl
    have := congrArg List.length hl
    simp at this
    omega
  rcases minimize_error E x0 startId hess0 st0 fuel st' e h with ⟨_, h, _⟩ | h | ⟨st1, hb, h⟩ | ⟨k, st1, cur1, st2, hh, hc, h⟩ |
    ⟨k, st1, cur, st2, hh, hc, h⟩
  · exact absurd h hne
  · obtain ⟨_, _, rfl⟩ := checkInBounds_error _ _ _ _ _ h
    exact absurd rfl hne
  · obtain ⟨rfl, _⟩ := checkInBounds_ok _ _ _ _ hb
    have key : ∀ r : EvalRec F n, st'.evals = r :: st0.evals → r = first := by
      intro r hr
      rw [hr] at hl
      have hlen := congrArg List.length hl
      simp only [List.length_cons, List.length_append] at hlen
      have : l = [] := by
        cases l with
        | nil => rfl
        | cons a t => simp at hlen
      subst this
      simp only [List.nil_append, List.cons.injEq] at hl
      exact hl.1
    rcases setup_error E hess0 _ st' e h with ⟨rfl, _⟩ | ⟨raw, happ, fo, _, hty, hnf, _, rfl⟩
    · have := key _ rfl
      rw [← this] at h0
      cases h0
    · have hev : ({ setupState (startState E x0 startId st0) fo happ with exitflag := .notFinite } : St F n).evals =
          { arg := (startState E x0 startId st0).x, out := .ok fo } :: st0.evals := by
        obtain ⟨a, b, c, d, hf⟩ := setupState_frame (startState E x0 startId st0) fo happ
        rw [hf]; rfl
      have := key _ hev
      rw [← this] at h0
      cases h0
      rw [finiteEval_iff, hnf] at hfin
      cases hfin
  · obtain ⟨rfl, _⟩ := checkContinue_true E st1 st2 hc
    obtain ⟨done, hd, hu⟩ := head_usable E x0 startId hess0 st0 k st1 cur1 hh
    rcases h with ⟨_, rfl, _⟩ | h
    · exact ⟨done, Or.inl hd, usable_congr hu rfl rfl rfl rfl rfl rfl⟩
    rcases iterate_error E _ st' cur1 e h with ⟨_, _, rfl⟩ | ⟨_, ⟨_, rfl⟩ | ⟨step, _, ⟨ho, rfl⟩ | ⟨new, ho, hnx, hnxi, ⟨hf1, hf2, he, rfl⟩ |
      ⟨hfin', hcase⟩⟩⟩⟩
    · exact ⟨done, Or.inl hd, usable_congr hu rfl rfl rfl rfl rfl rfl⟩
    · exact ⟨done, Or.inl hd, usable_congr hu rfl rfl rfl rfl rfl rfl⟩
    · refine ⟨done, Or.inr ⟨({ arg := trialPoint { st1 with ticks := st1.ticks + 1 } step, out := .error e } : EvalRec F n), Or.inl rfl, ?_⟩, usable_congr hu rfl rfl rfl rfl rfl rfl⟩
      show _ :: st1.evals = _
      rw [hd]
    · refine ⟨done, Or.inr ⟨({ arg := trialPoint { st1 with ticks := st1.ticks + 1 } step, out := .ok new } : EvalRec F n), Or.inr ⟨new, rfl, hf1, ?_, he⟩, ?_⟩, usable_congr hu rfl rfl rfl rfl rfl rfl⟩
      · rw [finiteEval_iff, hf2]; simp
      · show _ :: st1.evals = _
        rw [hd]
    · obtain ⟨done', b, hd', hu', hM, hid⟩ := post_usable E x0 startId hess0 st0 k st1 cur1 hh step new hnx hnxi
      rcases hcase with ⟨_, hup⟩ | ⟨hacc, hup, _⟩ | ⟨_, rfl, _⟩
      · rcases update_error E step new cur1 _ st' e hup with ⟨rfl, _⟩ | ⟨_, _, happ, hess, rfl⟩
        · exact ⟨_, Or.inl hd', hu'⟩
        · exact ⟨_, Or.inl hd', usable_congr hu' rfl rfl rfl rfl rfl rfl⟩
      · obtain ⟨hbd, happ, hess, -, rfl⟩ := update_ok E step new cur1 _ st' hup
        obtain ⟨-, hallf, -⟩ := accepted_lt E _ step _ hacc hfin'
        refine ⟨_, Or.inl hd', hu'.returned, ⟨b, hM.best, hM.fval, hM.grad, ?_⟩,
          ⟨new, List.mem_cons_self, (finiteEval_iff new).mpr hallf, hbd, rfl, rfl, Or.inr rfl⟩⟩
        simp only [makeNonDegenerate]
        split
        · rename_i heq
          rw [hid heq]; exact Or.inr ⟨hbd, rfl⟩
        · exact hM.x
      · exact ⟨_, Or.inl hd', hu'⟩
  · obtain ⟨done, hd, hu⟩ := head_usable E x0 startId hess0 st0 k st1 cur hh
    have hst : st' = st2 := by
      unfold writeHistory at h
      repeat' split at h
      all_goals cases h
      rfl
    subst hst
    obtain ⟨-, -, -, -, e5⟩ := checkContinue_file E st1 st' false hc
    refine ⟨done, Or.inl (e5.trans hd), ?_⟩
    rcases checkContinue_false E st1 st' hc with ⟨_, rfl⟩ | ⟨_, _, rfl⟩ | ⟨_, _, _, rfl⟩ | ⟨_, _, _, rfl⟩
    all_goals exact usable_congr hu rfl rfl rfl rfl rfl rfl

/-- C82: an exception raised by the objective reaches the caller, and no further call is made.  (`suf` are the earlier calls of the run.) -/
theorem C82_propagates (fuel : ℕ) (pre : List (EvalRec F n)) (r : EvalRec F n) (suf : List (EvalRec F n))
    (hc : CallsOf st0 (minimize E fuel x0 startId hess0 st0) (pre ++ r :: suf)) (hr : E.obj (suf.length + st0.evals.length) r.arg = .raised) :
    pre = [] ∧ ∃ s, minimize E fuel x0 startId hess0 st0 = .error (.userError, s) := by
  obtain ⟨calls, h1, h2⟩ := run_calls E x0 startId hess0 st0 fuel
  have hcalls : calls = pre ++ r :: suf := List.append_cancel_right (h1.symm.trans hc)
  obtain ⟨h3, h4⟩ := h2 pre r suf hcalls
  exact h4 _ (h3.1 _ (by rw [hr]; rfl))

open Num in
open Classical in
/-- the demo run with an objective whose second call raises -/
noncomputable def raisingEnv : Env Num 1 :=
  { demoEnv (1 / 100000000) (fin 0) (fin 0) with
    obj := fun k x => if k = 0 then (demoEnv (1 / 100000000) (fin 0) (fin 0)).obj k x else .raised }

open Num in
/-- the objective of `raisingEnv` is called at 1 and then at 0, where it raises; `x` and `x_min` are still 1 -/
theorem raising_run : ∃ st' first fo0, minimize raisingEnv 1 (v1 1) "run" .hessStr demoSt0 = .error (.userError, st') ∧
    st'.evals = { arg := v1 0, out := .error .userError } :: first :: demoSt0.evals ∧ first.out = .ok fo0 ∧ FiniteEval fo0 := by
  have hx : (startState raisingEnv (v1 1) "run" demoSt0).x = v1 1 := demo_nudge (1 / 100000000) (fin 0) (fin 0) 1
  have hb : inBounds raisingEnv.lb raisingEnv.ub (v1 1) = true := inBounds_real _ _ _ (demo_box (1 / 100000000) (fin 0) (fin 0) 1)
  have hfin : allFinite (demoFirst (startState raisingEnv (v1 1) "run" demoSt0).xId).fval (demoFirst (startState raisingEnv (v1 1) "run" demoSt0).xId).grad
      (demoFirst (startState raisingEnv (v1 1) "run" demoSt0).xId).hess = true := by simp [demoFirst, allFinite, vfinite, mfinite, v1]
  have hhead : LoopHead raisingEnv (v1 1) "run" .hessStr demoSt0 0 (demoHead (1 / 100000000) (fin 0) (fin 0) demoSt0)
      (demoFirst (startState raisingEnv (v1 1) "run" demoSt0).xId) := by
    refine LoopHead.start (startState raisingEnv (v1 1) "run" demoSt0) _ _ ?_ ?_
    · rw [hx, checkInBounds, if_pos hb]
    · refine setup_forward _ _ _ { fval := .scalar (fin (1 / 2)), grad := .arr [1] [fin 1], hess := .arr [1, 1] [fin 1], res := .none, sres := .none } _ _ ?_ ?_ ?_ ?_ hfin
      · rw [hx]
        have : (startState raisingEnv (v1 1) "run" demoSt0).evals.length = 0 := rfl
        rw [this]
        simp [raisingEnv, demoEnv, funEval]
      · rfl
      · rfl
      · rw [hx, typed_one]; rfl
  have hc : checkContinue raisingEnv (demoHead (1 / 100000000) (fin 0) (fin 0) demoSt0) = (true, demoPre (1 / 100000000) (fin 0) (fin 0) demoSt0) :=
    demo_continue (1 / 100000000) (fin 0) (fin 0) demoSt0
  obtain ⟨step, hstep⟩ := demo_step
  obtain ⟨htr, h2, h3, _⟩ := hstep (1 / 100000000) (fin 0) (fin 0) demoSt0
  have htr' : raisingEnv.tr (demoPre (1 / 100000000) (fin 0) (fin 0) demoSt0).proposals
      (trInput raisingEnv (preIter (demoPre (1 / 100000000) (fin 0) (fin 0) demoSt0))) = .ok step := htr
  have hev : (demoPre (1 / 100000000) (fin 0) (fin 0) demoSt0).evals =
      { arg := v1 1, out := .ok (demoFirst (startState raisingEnv (v1 1) "run" demoSt0).xId) } :: demoSt0.evals := by
    obtain ⟨a, b, c, d, h⟩ := demoHead_eq (1 / 100000000) (fin 0) (fin 0) demoSt0
    show (demoHead (1 / 100000000) (fin 0) (fin 0) demoSt0).evals = _
    rw [h]; rfl
  have hout : trialOut raisingEnv (demoPre (1 / 100000000) (fin 0) (fin 0) demoSt0) step = .error .userError := by
    have hlen : (demoPre (1 / 100000000) (fin 0) (fin 0) demoSt0).evals.length = 1 := by
      rw [hev]; rfl
    have hob : raisingEnv.obj (demoPre (1 / 100000000) (fin 0) (fin 0) demoSt0).evals.length
        (trialPoint (demoPre (1 / 100000000) (fin 0) (fin 0) demoSt0) step) = .raised := by rw [hlen]; rfl
    show (match funEval raisingEnv.nargout raisingEnv.resfun (raisingEnv.obj (demoPre (1 / 100000000) (fin 0) (fin 0) demoSt0).evals.length
        (trialPoint (demoPre (1 / 100000000) (fin 0) (fin 0) demoSt0) step)) with
      | .error e => .error e
      | .ok raw => (match raw.typed (trialPoint (demoPre (1 / 100000000) (fin 0) (fin 0) demoSt0) step) (demoPre (1 / 100000000) (fin 0) (fin 0) demoSt0).nextId with
        | some fo => .ok fo
        | none => .error .valueError) : Except PyErr (Funout Num 1)) = _
    rw [hob]; rfl
  obtain ⟨st', hit, hs⟩ : ∃ st', iterate raisingEnv (demoPre (1 / 100000000) (fin 0) (fin 0) demoSt0)
      (demoFirst (startState raisingEnv (v1 1) "run" demoSt0).xId) = .error (.userError, st') ∧
      st'.evals = { arg := v1 0, out := .error .userError } :: (demoPre (1 / 100000000) (fin 0) (fin 0) demoSt0).evals := by
    cases hi : iterate raisingEnv (demoPre (1 / 100000000) (fin 0) (fin 0) demoSt0) (demoFirst (startState raisingEnv (v1 1) "run" demoSt0).xId) with
    | ok r =>
      exfalso
      obtain ⟨step', new', hist, _, h, ho, _⟩ := iterate_ok raisingEnv _ r.1 _ r.2 hi
      rw [htr'] at h; cases h
      rw [hout] at ho; cases ho
    | error r =>
      obtain ⟨e, s⟩ := r
      rcases iterate_error raisingEnv _ s _ e hi with ⟨h, _⟩ | ⟨_, ⟨h, _⟩ | ⟨step', h, h4⟩⟩
      · have := demo_finite (1 / 100000000) (fin 0) (fin 0) demoSt0
        rw [this] at h; cases h
      · rw [htr'] at h; cases h
      · rw [htr'] at h; cases h
        rcases h4 with ⟨h, rfl⟩ | ⟨new', hn, _⟩
        · rw [hout] at h; cases h
          refine ⟨_, rfl, ?_⟩
          show ({ arg := trialPoint (demoPre (1 / 100000000) (fin 0) (fin 0) demoSt0) step, out := .error .userError } : EvalRec Num 1) :: _ = _
          rw [demo_trialPoint _ _ _ _ step h2 h3]
        · rw [hout] at hn; cases hn
  refine ⟨st', { arg := v1 1, out := .ok (demoFirst (startState raisingEnv (v1 1) "run" demoSt0).xId) }, _, minimize_of_head' raisingEnv _ _ _ _ _ st' _ 1 one_ne_zero hhead .userError (loop_raise _ 0 _ _ _ _ hc hit), ?_, rfl, (finiteEval_iff _).mpr hfin⟩
  rw [hs, hev]

/-- the hypotheses of C82 are met: the second call of the objective raises -/
example : ∃ st' l first fo0, minimize raisingEnv 1 (v1 1) "run" .hessStr demoSt0 = .error (.userError, st') ∧
    st'.evals = l ++ first :: demoSt0.evals ∧ first.out = .ok fo0 ∧ FiniteEval fo0 := by
  obtain ⟨s, f, fo, h1, h2, h3, h4⟩ := raising_run
  exact ⟨s, [_], f, fo, h1, h2, h3, h4⟩

/-- the hypotheses of `C82_propagates` are met by the same run -/
example : ∃ (r : EvalRec Num 1) (suf : List (EvalRec Num 1)),
    CallsOf demoSt0 (minimize raisingEnv 1 (v1 1) "run" .hessStr demoSt0) ([] ++ r :: suf) ∧ suf ≠ [] ∧
    raisingEnv.obj (suf.length + demoSt0.evals.length) r.arg = .raised := by
  obtain ⟨s, f, fo, h1, h2, h3, h4⟩ := raising_run
  refine ⟨{ arg := v1 0, out := .error .userError }, [f], ?_, by simp, ?_⟩
  · rw [h1]; exact h2
  · simp [raisingEnv]

end Fides
