import Verif.Spec.Log
import Verif.Lemmas.Pass
import Verif.Lemmas.Converge

/-! Helper lemmas: the progress log. -/

set_option linter.unusedSectionVars false

namespace Fides
open Spec
variable {F : Type} [FloatOps F] {n : ℕ}

theorem table_append (a b : List (LogRow F)) : table (a ++ b) = table a ++ table b := by
  simp [table, List.flatMap_append]

theorem table_one (r : LogRow F) : table [r] = (if r.iteration % 10 = 0 then [.header] else []) ++ [.row r] := by
  unfold table
  simp only [List.flatMap_cons, List.flatMap_nil, List.append_nil]
  split <;> rfl

theorem radiusStep_iteration (E : Env F n) (st : St F n) (step : Step F n) (new : Funout F n) :
    (radiusStep E st step new).2.iteration = st.iteration + 1 ∧ (radiusStep E st step new).2.fval = st.fval ∧
    (radiusStep E st step new).2.grad = st.grad ∧ (radiusStep E st step new).2.deltaIter = st.delta := by
  unfold radiusStep
  obtain ⟨r, d, i, m, h⟩ := updateTrRadius_frame E new step (trInput E (preIter st)).dv (afterEval st step (.ok new))
  rw [h]
  exact ⟨rfl, rfl, rfl, rfl⟩

/-- the lines of a pass that got as far as the log -/
theorem iterLog_of (E : Env F n) (st : St F n) (step : Step F n) (new : Funout F n)
    (hf : allFinite st.fval st.grad (some st.hess) = true) (htr : E.tr st.proposals (trInput E (preIter st)) = .ok step)
    (hout : trialOut E st step = .ok new)
    (hfin : isFinite new.fval = true → allFinite new.fval new.grad new.hess = true) :
    iterLog E st = table [logRow (radiusStep E st step new).1 step new (radiusStep E st step new).2] ++
      convLog E step new (radiusStep E st step new).2 := by
  rw [table_one]
  unfold iterLog
  simp only [checkFinite]
  rw [if_pos hf]
  simp only
  have htr' : E.tr st.proposals (trInput E { st with iteration := st.iteration + 1, deltaIter := st.delta }) = .ok step := htr
  rw [htr']
  simp only
  have hev : evaluate E (vadd (vadd st.x step.s) step.s0) (st.nextId + 1 - 1)
      { preIter st with proposals := st.proposals + 1, nextId := st.nextId + 1 } =
      (.ok new, afterEval st step (.ok new)) := by
    have h1 := evaluate_snd E (vadd (vadd st.x step.s) step.s0) (st.nextId + 1 - 1)
      { preIter st with proposals := st.proposals + 1, nextId := st.nextId + 1 }
    have h2 : (evaluate E (vadd (vadd st.x step.s) step.s0) (st.nextId + 1 - 1)
      { preIter st with proposals := st.proposals + 1, nextId := st.nextId + 1 }).1 = .ok new := hout
    rw [h2] at h1
    exact Prod.ext h2 h1
  simp only [preIter] at hev
  rw [hev]
  simp only
  have hchk : (if isFinite new.fval = true then
      (if allFinite new.fval new.grad new.hess = true then (.ok (afterEval st step (.ok new)) : Except (PyErr × St F n) (St F n))
        else .error (.runtimeError, { afterEval st step (.ok new) with exitflag := .notFinite }))
      else .ok (afterEval st step (.ok new))) = .ok (afterEval st step (.ok new)) := by
    split
    · rename_i h; rw [if_pos (hfin h)]
    · rfl
  rw [hchk]
  rfl

/-- otherwise there are none -/
theorem iterLog_cases (E : Env F n) (st : St F n) : iterLog E st = [] ∨ ∃ r m, r.iteration = st.iteration + 1 ∧
    iterLog E st = table [r] ++ m ∧ (m = [] ∨ ∃ w, m = [.stop w]) := by
  have hconv : ∀ step new s, convLog E step new s = [] ∨ ∃ w, convLog E step new s = [.stop w] := by
    intro step new s
    unfold convLog
    simp only
    split
    · exact Or.inr ⟨_, rfl⟩
    · split
      · exact Or.inr ⟨_, rfl⟩
      · split
        · exact Or.inr ⟨_, rfl⟩
        · split
          · exact Or.inr ⟨_, rfl⟩
          · exact Or.inl rfl
  by_cases hf : allFinite st.fval st.grad (some st.hess) = true
  · cases htr : E.tr st.proposals (trInput E (preIter st)) with
    | error e =>
      left
      unfold iterLog
      simp only [checkFinite]
      rw [if_pos hf]
      simp only
      have htr' : E.tr st.proposals (trInput E { st with iteration := st.iteration + 1, deltaIter := st.delta }) = .error e := htr
      rw [htr']
    | ok step =>
      cases hout : trialOut E st step with
      | error e =>
        left
        unfold iterLog
        simp only [checkFinite]
        rw [if_pos hf]
        simp only
        have htr' : E.tr st.proposals (trInput E { st with iteration := st.iteration + 1, deltaIter := st.delta }) = .ok step := htr
        rw [htr']
        simp only
        split
        · rfl
        · rename_i new' st1 hev
          have h2 : trialOut E st step = .ok new' := congrArg Prod.fst hev
          rw [hout] at h2; cases h2
      | ok new =>
        by_cases hfin : isFinite new.fval = true → allFinite new.fval new.grad new.hess = true
        · right
          refine ⟨_, _, ?_, iterLog_of E st step new hf htr hout hfin, hconv _ _ _⟩
          exact (radiusStep_iteration E st step new).1
        · left
          unfold iterLog
          simp only [checkFinite]
          rw [if_pos hf]
          simp only
          have htr' : E.tr st.proposals (trInput E { st with iteration := st.iteration + 1, deltaIter := st.delta }) = .ok step := htr
          rw [htr']
          simp only
          split
          · rfl
          · rename_i new' st1 hev
            have h2 : trialOut E st step = .ok new' := congrArg Prod.fst hev
            rw [hout] at h2; cases h2
            rw [Classical.not_imp] at hfin
            rw [if_pos hfin.1, if_neg hfin.2]
  · left
    unfold iterLog
    simp only [checkFinite]
    rw [if_neg hf]

/-- the message of the convergence test agrees with its result -/
theorem convLog_cases (E : Env F n) (step : Step F n) (fo : Funout F n) (st : St F n) :
    ((checkConvergence E step fo st).converged = false ∧ convLog E step fo st = []) ∨
    ((checkConvergence E step fo st).converged = true ∧ ∃ w, convLog E step fo st = [.stop w] ∧
      flagOf w = (checkConvergence E step fo st).exitflag ∧
      ((w = .fdiff (FloatOps.abs (st.fval - fo.fval)) E.opts.fatol E.opts.frtol ∧
          lt (FloatOps.abs (fo.fval - st.fval)) (E.opts.fatol + E.opts.frtol * FloatOps.abs st.fval) = true) ∨
       (w = .step (stepLength step) E.opts.xtol ∧ lt (stepLength step) E.opts.xtol = true) ∨
       (w = .gradAbs (norm fo.grad) E.opts.gatol ∧ le (norm fo.grad) E.opts.gatol = true) ∨
       (w = .gradRel (norm fo.grad) E.opts.grtol (FloatOps.abs st.fval) ∧
          le (norm fo.grad) (E.opts.grtol * FloatOps.abs st.fval) = true))) := by
  unfold checkConvergence convLog
  simp only
  split
  · rename_i h
    rw [Bool.and_eq_true] at h
    exact Or.inr ⟨rfl, _, rfl, rfl, Or.inl ⟨rfl, h.2⟩⟩
  · split
    · rename_i h
      rw [Bool.and_eq_true] at h
      exact Or.inr ⟨rfl, _, rfl, rfl, Or.inr (Or.inl ⟨rfl, h.2⟩)⟩
    · split
      · rename_i h
        exact Or.inr ⟨rfl, _, rfl, rfl, Or.inr (Or.inr (Or.inl ⟨rfl, h⟩))⟩
      · split
        · rename_i h
          exact Or.inr ⟨rfl, _, rfl, rfl, Or.inr (Or.inr (Or.inr ⟨rfl, h⟩))⟩
        · exact Or.inl ⟨rfl, rfl⟩

/-- the message of the loop test agrees with its result -/
theorem contLog_cases (E : Env F n) (st st1 : St F n) (b : Bool) (h : checkContinue E st = (b, st1)) :
    (b = true ∧ contLog E st = []) ∨ (b = false ∧ st.converged = true ∧ st1 = st ∧ contLog E st = []) ∨
    (b = false ∧ st.converged = false ∧ ∃ w, contLog E st = [.stop w] ∧ flagOf w = st1.exitflag ∧
      ((w = .maxiter E.opts.maxiter ∧ E.opts.maxiter ≤ (st1.iteration : Int)) ∨
       (w = .maxtime E.opts.maxtime ∧ lt (E.opts.maxtime - (E.clock st.ticks - st1.starttime))
          ((E.clock st.ticks - st1.starttime) / lit ((if st1.iteration = 0 then 1 else st1.iteration : Nat) : ℚ)) = true) ∨
       (w = .delta st1.delta ∧ lt st1.delta spacing1 = true))) := by
  unfold checkContinue at h
  unfold contLog
  simp only at h ⊢
  generalize hm : (if st.iteration = 0 then 1 else st.iteration : Nat) = m at h ⊢
  split at h
  · rename_i h1
    cases h
    rw [if_pos h1]
    exact Or.inr (Or.inl ⟨rfl, h1, rfl, rfl⟩)
  · rename_i h1
    rw [if_neg h1]
    have h1' : st.converged = false := by simpa using h1
    split at h
    · rename_i h2
      cases h
      rw [if_pos h2]
      exact Or.inr (Or.inr ⟨rfl, h1', _, rfl, rfl, Or.inl ⟨rfl, h2⟩⟩)
    · rename_i h2
      rw [if_neg h2]
      split at h
      · rename_i h3
        cases h
        rw [if_pos h3]
        exact Or.inr (Or.inr ⟨rfl, h1', _, rfl, rfl, Or.inr (Or.inl ⟨rfl, by subst hm; exact h3⟩)⟩)
      · rename_i h3
        rw [if_neg h3]
        split at h
        · rename_i h4
          cases h
          rw [if_pos h4]
          exact Or.inr (Or.inr ⟨rfl, h1', _, rfl, rfl, Or.inr (Or.inr ⟨rfl, h4⟩)⟩)
        · rename_i h4
          cases h
          rw [if_neg h4]
          exact Or.inl ⟨rfl, rfl⟩

/-- a pass through the loop body -/
theorem pass_of (E : Env F n) (st st2 : St F n) (cur cur2 : Funout F n)
    (hc : checkContinue E st = (true, { st with ticks := st.ticks + 1 }))
    (hi : iterate E { st with ticks := st.ticks + 1 } cur = .ok (st2, cur2)) :
    ∃ step new, Pass E st cur step new st2 cur2 := by
  obtain ⟨step, new, hist, hfin0, htr, hout, hnx, hnxi, hfin, hcase⟩ := iterate_ok E _ st2 cur cur2 hi
  refine ⟨step, new, ⟨hc, hi, htr, ?_, hnx⟩⟩
  obtain ⟨r, d, i, m, ef, c, mx, mxi, mf, mg, hpf⟩ := postCheck_frame E { st with ticks := st.ticks + 1 } step new
  rcases hcase with ⟨hacc, rfl, st4, hu, -, rfl⟩ | ⟨hacc, rfl, -, rfl⟩
  · obtain ⟨hbd, happ, hess, hhap, rfl⟩ := update_ok E step _ cur _ st4 hu
    show (postCheck E _ step _).evals = _
    rw [hpf]; rfl
  · show (postCheck E _ step _).evals = _
    rw [hpf]; rfl

/-- a pass that raised had been counted -/
theorem iterate_error_iteration (E : Env F n) (st st' : St F n) (cur : Funout F n) (e : PyErr)
    (h : iterate E st cur = .error (e, st')) : st'.iteration = st.iteration + 1 := by
  have hpc : ∀ step new, (postCheck E st step new).iteration = st.iteration + 1 := by
    intro step new
    obtain ⟨r, d, i, m, ef, c, mx, mxi, mf, mg, hpf⟩ := postCheck_frame E st step new
    rw [hpf]; rfl
  rcases iterate_error E st st' cur e h with ⟨_, _, rfl⟩ | ⟨_, ⟨_, rfl⟩ | ⟨step, _, ⟨_, rfl⟩ | ⟨new, _, _, _, ⟨_, _, _, rfl⟩ | ⟨_, h3⟩⟩⟩⟩
  · rfl
  · rfl
  · rfl
  · rfl
  · rcases h3 with ⟨_, hu⟩ | ⟨_, hu, _⟩ | ⟨_, rfl, _⟩
    · rcases update_error E step new cur _ st' e hu with ⟨rfl, _⟩ | ⟨_, _, happ, hess, rfl⟩
      · exact hpc _ _
      · exact hpc _ _
    · obtain ⟨hbd, happ, hess, hhap, rfl⟩ := update_ok E step _ cur _ st' hu
      exact hpc _ _
    · exact hpc _ _

/-- the lines of a completed pass -/
theorem pass_row (E : Env F n) (prev : St F n) (cur : Funout F n) (step : Step F n) (new : Funout F n) (next : St F n)
    (cur' : Funout F n) (h : Pass E prev cur step new next cur') :
    iterLog E { prev with ticks := prev.ticks + 1 } =
      table [logRow (radiusStep E prev step new).1 step new (radiusStep E prev step new).2] ++
        convLog E step new (radiusStep E prev step new).2 := by
  obtain ⟨step', new', hist, hfin0, htr, hout, hnx, hnxi, hfin, hcase⟩ := iterate_ok E _ next cur cur' h.body
  have hs : step' = step := by
    have h1 : E.tr prev.proposals (trInput E { prev with iteration := prev.iteration + 1, deltaIter := prev.delta,
                                                         ticks := prev.ticks + 1 }) = .ok step' := htr
    rw [h.proposal] at h1
    cases h1; rfl
  subst hs
  have hn : new' = new := by
    have hev : next.evals = { arg := trialPoint prev step', out := .ok new' } :: prev.evals := by
      obtain ⟨r, d, i, m, ef, c, mx, mxi, mf, mg, hpf⟩ := postCheck_frame E { prev with ticks := prev.ticks + 1 } step' new'
      rcases hcase with ⟨hacc, rfl, st4, hu, -, rfl⟩ | ⟨hacc, rfl, -, rfl⟩
      · obtain ⟨hbd, happ, hess, hhap, rfl⟩ := update_ok E step' _ cur _ st4 hu
        show (postCheck E _ step' _).evals = _
        rw [hpf]; rfl
      · show (postCheck E _ step' _).evals = _
        rw [hpf]; rfl
    have h1 := h.evaluated
    rw [hev] at h1
    simp only [List.cons.injEq, EvalRec.mk.injEq, Except.ok.injEq, and_true] at h1
    exact h1.2
  subst hn
  have hr := radiusStep_ticks E prev (prev.ticks + 1) step' new'
  have hrow := iterLog_of E { prev with ticks := prev.ticks + 1 } step' new' hfin0 htr hout hfin
  rw [hrow, hr]; rfl

variable [LawfulFloat F]

/-- a completed pass adds its row, and a message iff it ends the run -/
theorem pass_log (E : Env F n) (prev : St F n) (cur : Funout F n) (step : Step F n) (new : Funout F n) (next : St F n)
    (cur' : Funout F n) (h : Pass E prev cur step new next cur') :
    ∃ r, ShowsPass prev step new next r ∧
      iterLog E { prev with ticks := prev.ticks + 1 } = table [r] ++ convLog E step new (radiusStep E prev step new).2 := by
  have hp := pass_facts E prev cur step new next cur' h
  refine ⟨_, ?_, pass_row E prev cur step new next cur' h⟩
  obtain ⟨f1, f2, f3, f4⟩ := radiusStep_iteration E prev step new
  refine { iteration := f1, fval := ?_, fdiff := ?_, ratio := ?_, radius := f4, gnorm := ?_, stepnorm := rfl, type := rfl,
           accepted := ?_, rejected := ?_ }
  · rcases hp.cases with ⟨hacc, h1, _, _, h2, h3⟩ | ⟨hacc, h1, h2, h3, h4, h5, h6⟩
    · obtain ⟨hlt, hf, _⟩ := accepted_lt E prev step new hacc hp.finite1
      have hff := ((allFinite_iff _ _ _).mp hf).1
      simp only [logRow, hacc, if_true, hff]
      exact h2.symm
    · simp only [logRow, hacc, Bool.false_eq_true, if_false, f2]
      exact h3.symm
  · simp only [logRow, f2]
  · simp only [logRow]; rw [hp.ratio]
  · simp only [logRow, f3]
  · intro hacc
    have hacc' : (radiusStep E prev step new).1 = true := hacc
    rcases hp.cases with ⟨_, h1, _, _, h2, h3⟩ | ⟨hr', _⟩
    · obtain ⟨hlt, hf, _⟩ := accepted_lt E prev step new hacc' hp.finite1
      rw [h2]
      exact ⟨rfl, h3, hlt⟩
    · rw [hr'] at hacc'; cases hacc'
  · intro hacc
    have hacc' : (radiusStep E prev step new).1 = false := hacc
    rcases hp.cases with ⟨hr', _⟩ | ⟨_, h1, h2, h3, h4, h5, h6⟩
    · rw [hr'] at hacc'; cases hacc'
    · exact ⟨h3, h4, h2⟩

section
variable (E : Env F n) (x0 : Vec F n) (startId : String) (hess0 : Hess0 F) (st0 : St F n)

/-- row `j` of `rows` shows pass number `k + j + 1` of the run -/
def RowsFrom (k : ℕ) (rows : List (LogRow F)) : Prop :=
  ∀ j (hj : j < rows.length), ∃ prev cur step new next cur', LoopHead E x0 startId hess0 st0 (k + j) prev cur ∧
    Pass E prev cur step new next cur' ∧ LoopHead E x0 startId hess0 st0 (k + j + 1) next cur' ∧
    ShowsPass prev step new next rows[j]

theorem rowsFrom_cons (k : ℕ) (r : LogRow F) (rows : List (LogRow F)) (prev : St F n) (cur : Funout F n) (step : Step F n)
    (new : Funout F n) (next : St F n) (cur' : Funout F n) (h1 : LoopHead E x0 startId hess0 st0 k prev cur)
    (h2 : Pass E prev cur step new next cur') (h3 : LoopHead E x0 startId hess0 st0 (k + 1) next cur')
    (h4 : ShowsPass prev step new next r) (h5 : RowsFrom E x0 startId hess0 st0 (k + 1) rows) :
    RowsFrom E x0 startId hess0 st0 k (r :: rows) := by
  intro j hj
  cases j with
  | zero => exact ⟨prev, cur, step, new, next, cur', h1, h2, h3, h4⟩
  | succ j =>
    have := h5 j (by simpa using hj)
    have e : k + 1 + j = k + (j + 1) := by omega
    rw [e] at this
    exact this

/-- the lines of a loop that ends normally -/
theorem loopLog_ok (fuel : ℕ) (k : ℕ) (st st' : St F n) (cur : Funout F n)
    (hh : LoopHead E x0 startId hess0 st0 k st cur) (hc0 : st.converged = false) (h : loop E fuel st cur = .ok st') :
    ∃ rows w, loopLog E fuel st cur = table rows ++ [.stop w] ∧ RowsFrom E x0 startId hess0 st0 k rows ∧
      (∃ last cur1 , LoopHead E x0 startId hess0 st0 (k + rows.length) last cur1 ∧ checkContinue E last = (false, st')) ∧
      flagOf w = st'.exitflag ∧ Truthful E x0 startId hess0 st0 st' w := by
  induction fuel generalizing k st cur with
  | zero =>
    unfold loop at h
    split at h
    · rename_i st1 hc
      cases h
      rcases contLog_cases E st st' false hc with ⟨h1, _⟩ | ⟨_, h1, _⟩ | ⟨_, _, w, h1, h2, h3⟩
      · cases h1
      · rw [hc0] at h1; cases h1
      · refine ⟨[], w, ?_, fun j hj => absurd hj (by simp), ⟨st, cur, hh, hc⟩, h2, ?_⟩
        · unfold loopLog; rw [h1, hc]; rfl
        · rcases h3 with ⟨rfl, h⟩ | ⟨rfl, h⟩ | ⟨rfl, h⟩
          · exact ⟨rfl, h⟩
          · exact ⟨rfl, _, h⟩
          · exact ⟨rfl, h⟩
    · cases h
  | succ fuel ih =>
    unfold loop at h
    split at h
    · rename_i st1 hc
      cases h
      rcases contLog_cases E st st' false hc with ⟨h1, _⟩ | ⟨_, h1, _⟩ | ⟨_, _, w, h1, h2, h3⟩
      · cases h1
      · rw [hc0] at h1; cases h1
      · refine ⟨[], w, ?_, fun j hj => absurd hj (by simp), ⟨st, cur, hh, hc⟩, h2, ?_⟩
        · unfold loopLog; rw [h1, hc]; rfl
        · rcases h3 with ⟨rfl, h⟩ | ⟨rfl, h⟩ | ⟨rfl, h⟩
          · exact ⟨rfl, h⟩
          · exact ⟨rfl, _, h⟩
          · exact ⟨rfl, h⟩
    · rename_i st1 hc
      simp only at h
      split at h
      · cases h
      · rename_i st2 cur2 hi
        have hh2 : LoopHead E x0 startId hess0 st0 (k + 1) st2 cur2 := .next k st st1 st2 cur cur2 hh hc hi
        obtain ⟨prev, cur0, step, new, hhp, hpass⟩ := loopHead_pass E x0 startId hess0 st0 k st2 cur2 hh2
        obtain ⟨rfl, rfl⟩ := loopHead_unique E _ startId hess0 st0 k _ _ _ _ hh hhp
        obtain ⟨rfl, _⟩ := checkContinue_true E st st1 hc
        obtain ⟨r, hr, hlog⟩ := pass_log E st cur step new st2 cur2 hpass
        have hp := pass_facts E _ _ _ _ _ _ hpass
        have hcl : contLog E st = [] := by
          rcases contLog_cases E st _ true hc with ⟨_, h1⟩ | ⟨h1, _⟩ | ⟨h1, _⟩
          · exact h1
          · cases h1
          · cases h1
        have hunf : loopLog E (fuel + 1) st cur = iterLog E { st with ticks := st.ticks + 1 } ++ loopLog E fuel st2 cur2 := by
          conv_lhs => unfold loopLog
          rw [hcl, hc]
          simp only [List.nil_append]
          rw [hi]
        rcases convLog_cases E step new (radiusStep E st step new).2 with ⟨hv, hm⟩ | ⟨hv, w, hm, hfl, htrue⟩
        · rw [← hp.converged] at hv
          obtain ⟨rows, w, h1, h2, ⟨last, cur1, h3, h3'⟩, h4, h5⟩ := ih (k + 1) st2 cur2 hh2 hv h
          refine ⟨r :: rows, w, ?_, rowsFrom_cons E x0 startId hess0 st0 k r rows st cur step new st2 cur2 hh hpass hh2 hr h2,
            ⟨last, cur1, ?_, h3'⟩, h4, h5⟩
          · rw [hunf, hlog, hm, h1]
            have : r :: rows = [r] ++ rows := rfl
            rw [this, table_append]
            simp
          · have e : k + (r :: rows).length = k + 1 + rows.length := by simp; omega
            rw [e]; exact h3
        · rw [← hp.converged] at hv
          have hcc : checkContinue E st2 = (false, st2) := by
            unfold checkContinue; rw [if_pos hv]
          have hst' : st' = st2 := by
            cases fuel <;> (unfold loop at h; rw [hcc] at h; cases h; rfl)
          subst hst'
          have hl0 : loopLog E fuel st' cur2 = [] := by
            have hcl2 : contLog E st' = [] := by unfold contLog; rw [if_pos hv]
            cases fuel <;> (unfold loopLog; rw [hcl2, hcc]; rfl)
          obtain ⟨f1, f2, f3, f4⟩ := radiusStep_iteration E st step new
          have hlast : LastPass E x0 startId hess0 st0 st' st step new :=
            ⟨k, cur, st', cur2, st'.file, hh, hpass, rfl⟩
          refine ⟨[r], w, ?_, rowsFrom_cons E x0 startId hess0 st0 k r [] st cur step new st' cur2 hh hpass hh2 hr
            (fun j hj => absurd hj (by simp)), ⟨st', cur2, hh2, hcc⟩, ?_, ?_⟩
          · rw [hunf, hlog, hm, hl0]; simp
          · rw [hfl, hp.exitflag]
          · rw [f2] at htrue
            rcases htrue with ⟨rfl, h⟩ | ⟨rfl, h⟩ | ⟨rfl, h⟩ | ⟨rfl, h⟩
            · exact ⟨rfl, rfl, st, step, new, hlast, rfl, h⟩
            · exact ⟨rfl, h, st, step, new, hlast, rfl⟩
            · exact ⟨rfl, h, st, step, new, hlast, rfl⟩
            · exact ⟨rfl, h, st, step, new, hlast, rfl, rfl⟩
end

end Fides

namespace Fides
open Spec
variable {F : Type} [FloatOps F] {n : ℕ}

theorem rowsOf_append (a b : List (LogLine F)) : rowsOf (a ++ b) = rowsOf a ++ rowsOf b := List.filterMap_append

theorem rowsOf_table (rows : List (LogRow F)) : rowsOf (table rows) = rows := by
  induction rows with
  | nil => rfl
  | cons r rows ih =>
    have : r :: rows = [r] ++ rows := rfl
    rw [this, table_append, rowsOf_append, ih, table_one]
    split <;> rfl

section
variable (E : Env F n) (x0 : Vec F n) (startId : String) (hess0 : Hess0 F) (st0 : St F n)

/-- the lines of the start -/
theorem setupLog_ok (st st' : St F n) (cur : Funout F n) (h : setup E hess0 st = .ok (st', cur)) (h0 : st.iteration = 0) :
    ∃ r, setupLog E hess0 st = table [r] ∧ ShowsStart st' r ∧ st'.iteration = 0 := by
  obtain ⟨raw, happ, h1, h2, h3, h4, _, _, h5, rfl⟩ := setup_ok E hess0 st st' cur h
  obtain ⟨a, b, c, d, hf⟩ := setupState_frame st cur happ
  refine ⟨logRowInitial { st with fval := cur.fval, grad := cur.grad }, ?_, ?_, ?_⟩
  · unfold setupLog
    rw [h1]
    simp only
    rw [h2]
    simp only
    rw [h3]
    simp only
    rw [h4, table_one]
    have : (logRowInitial { st with fval := cur.fval, grad := cur.grad }).iteration % 10 = 0 := by
      show st.iteration % 10 = 0
      rw [h0]
    rw [if_pos this]
    rfl
  · rw [hf]
    exact { iteration := h0, fval := rfl, radius := rfl, gnorm := rfl, blank := ⟨rfl, rfl, rfl, rfl⟩, acc := rfl }
  · rw [hf]; exact h0

theorem setupLog_any (st : St F n) (h0 : st.iteration = 0) :
    setupLog E hess0 st = [] ∨ ∃ r, setupLog E hess0 st = table [r] ∧ r.iteration = 0 := by
  unfold setupLog
  split
  · exact Or.inl rfl
  · split
    · exact Or.inl rfl
    · split
      · exact Or.inl rfl
      · split
        · exact Or.inl rfl
        · right
          rename_i fo _
          refine ⟨logRowInitial { st with fval := fo.fval, grad := fo.grad }, ?_, h0⟩
          rw [table_one]
          have : (logRowInitial { st with fval := fo.fval, grad := fo.grad }).iteration % 10 = 0 := by
            show st.iteration % 10 = 0
            rw [h0]
          rw [if_pos this]
          rfl

/-- the lines of a loop however it ends -/
theorem loopLog_any (fuel : ℕ) (st : St F n) (cur : Funout F n) :
    ∃ rows o, loopLog E fuel st cur = table rows ++ o ∧ (o = [] ∨ ∃ w, o = [.stop w]) ∧
      rows.map LogRow.iteration = List.range' (st.iteration + 1) rows.length ∧
      (st.iteration + rows.length = (finalState (loop E fuel st cur)).iteration ∨
       st.iteration + rows.length + 1 = (finalState (loop E fuel st cur)).iteration) := by
  induction fuel generalizing st cur with
  | zero =>
    unfold loopLog loop
    cases hc : checkContinue E st with
    | mk b st1 =>
      cases b with
      | false =>
        refine ⟨[], contLog E st, by simp [table], ?_, rfl, Or.inl ?_⟩
        · rcases contLog_cases E st st1 false hc with ⟨h1, _⟩ | ⟨_, _, _, h1⟩ | ⟨_, _, w, h1, _⟩
          · cases h1
          · exact Or.inl h1
          · exact Or.inr ⟨w, h1⟩
        · rcases checkContinue_false E st st1 hc with ⟨_, rfl⟩ | ⟨_, _, rfl⟩ | ⟨_, _, _, rfl⟩ | ⟨_, _, _, rfl⟩ <;> rfl
      | true =>
        obtain ⟨rfl, _⟩ := checkContinue_true E st st1 hc
        have hcl : contLog E st = [] := by
          rcases contLog_cases E st _ true hc with ⟨_, h1⟩ | ⟨h1, _⟩ | ⟨h1, _⟩
          · exact h1
          · cases h1
          · cases h1
        exact ⟨[], [], by simp [table, hcl], Or.inl rfl, rfl, Or.inl rfl⟩
  | succ fuel ih =>
    unfold loopLog loop
    cases hc : checkContinue E st with
    | mk b st1 =>
      cases b with
      | false =>
        refine ⟨[], contLog E st, by simp [table], ?_, rfl, Or.inl ?_⟩
        · rcases contLog_cases E st st1 false hc with ⟨h1, _⟩ | ⟨_, _, _, h1⟩ | ⟨_, _, w, h1, _⟩
          · cases h1
          · exact Or.inl h1
          · exact Or.inr ⟨w, h1⟩
        · rcases checkContinue_false E st st1 hc with ⟨_, rfl⟩ | ⟨_, _, rfl⟩ | ⟨_, _, _, rfl⟩ | ⟨_, _, _, rfl⟩ <;> rfl
      | true =>
        obtain ⟨rfl, _⟩ := checkContinue_true E st st1 hc
        have hcl : contLog E st = [] := by
          rcases contLog_cases E st _ true hc with ⟨_, h1⟩ | ⟨h1, _⟩ | ⟨h1, _⟩
          · exact h1
          · cases h1
          · cases h1
        simp only [hcl, List.nil_append]
        cases hi : iterate E { st with ticks := st.ticks + 1 } cur with
        | error e =>
          obtain ⟨e, st'⟩ := e
          simp only [List.append_nil]
          have hst' : st'.iteration = st.iteration + 1 := iterate_error_iteration E { st with ticks := st.ticks + 1 } st' cur e hi
          rcases iterLog_cases E { st with ticks := st.ticks + 1 } with h | ⟨r, m, h1, h2, h3⟩
          · exact ⟨[], [], by rw [h]; simp [table], Or.inl rfl, rfl, Or.inr hst'.symm⟩
          · exact ⟨[r], m, h2, h3, by simp [h1], Or.inl hst'.symm⟩
        | ok p =>
          obtain ⟨st2, cur2⟩ := p
          simp only
          obtain ⟨rows, o, h1, h2, h3, h4⟩ := ih st2 cur2
          have hpass := pass_of E st st2 cur cur2 hc hi
          obtain ⟨step, new, hpass⟩ := hpass
          have hp := pass_facts E _ _ _ _ _ _ hpass
          have hlog := pass_row E st cur step new st2 cur2 hpass
          have hr := (radiusStep_iteration E st step new).1
          generalize hrr : logRow (radiusStep E st step new).1 step new (radiusStep E st step new).2 = r at hlog
          have hr : r.iteration = st.iteration + 1 := by rw [← hrr]; exact hr
          rw [hp.iteration] at h3 h4
          rcases convLog_cases E step new (radiusStep E st step new).2 with ⟨hv, hm⟩ | ⟨hv, w, hm, hfl, htrue⟩
          · refine ⟨r :: rows, o, ?_, h2, ?_, ?_⟩
            · rw [hlog, hm, h1]
              have : r :: rows = [r] ++ rows := rfl
              rw [this, table_append]
              simp
            · simp only [List.map_cons, List.length_cons, List.range'_succ, h3, hr]
            · simp only [List.length_cons]
              rcases h4 with h | h
              · left; omega
              · right; omega
          · rw [← hp.converged] at hv
            have hcc : checkContinue E st2 = (false, st2) := by unfold checkContinue; rw [if_pos hv]
            have hcl2 : contLog E st2 = [] := by unfold contLog; rw [if_pos hv]
            have hl0 : loopLog E fuel st2 cur2 = [] := by
              cases fuel <;> (unfold loopLog; rw [hcl2, hcc]; rfl)
            have hl1 : loop E fuel st2 cur2 = .ok st2 := by
              cases fuel <;> (unfold loop; rw [hcc])
            refine ⟨[r], [.stop w], ?_, Or.inr ⟨w, rfl⟩, ?_, Or.inl ?_⟩
            · rw [hlog, hm, hl0]; simp
            · simp [hr]
            · rw [hl1]; exact hp.iteration.symm

end
end Fides
