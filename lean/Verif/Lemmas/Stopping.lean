import Verif.Spec.Stopping
import Verif.Lemmas.Shift
import Verif.Lemmas.Converge

/-!
# The path does not depend on the stopping options
-/

set_option linter.unusedSectionVars false

namespace Fides
open Spec
variable {F : Type} [FloatOps F] {n : ℕ}

/-- forget clock readings and flags -/
def core (st : St F n) : St F n := { st with starttime := lit 0, ticks := 0, converged := false, exitflag := .didNotRun }

theorem samePath_iff (a b : St F n) : SamePath a b ↔ core a = core b := by
  cases a; cases b
  simp only [SamePath, core, St.mk.injEq]
  grind

def coreE {α : Type} : Except (PyErr × St F n) (St F n × α) → Except (PyErr × St F n) (St F n × α)
  | .error e => .error (e.1, core e.2)
  | .ok r => .ok (core r.1, r.2)

def coreU : Except (PyErr × St F n) (St F n) → Except (PyErr × St F n) (St F n)
  | .error e => .error (e.1, core e.2)
  | .ok r => .ok (core r)

/-- `E` with other stopping options and another clock -/
def restop (E : Env F n) (a : Int) (t1 t2 t3 t4 t5 t6 : F) (c : ℕ → F) : Env F n :=
  { E with opts := { E.opts with maxiter := a, maxtime := t1, fatol := t2, frtol := t3, xtol := t4, gatol := t5, grtol := t6 }, clock := c }

theorem restop_of (E E' : Env F n) (h : SameButStopping E E') :
    E' = restop E E'.opts.maxiter E'.opts.maxtime E'.opts.fatol E'.opts.frtol E'.opts.xtol E'.opts.gatol E'.opts.grtol E'.clock := by
  obtain ⟨h1, h2, h3, h4, h5, h6, h7, h8, h9, h10, h11, h12, h13, h14, h15, h16, h17⟩ := h
  rcases E' with ⟨_, _, o, _, _, _, _, _, _, _⟩
  rcases o
  simp only at *
  subst h1 h2 h3 h4 h5 h6 h7 h8 h9 h10 h11 h12 h13 h14 h15 h16 h17
  rfl

theorem core_checkFinite (f : F) (g : Vec F n) (h : Option (Mat F n n)) (st : St F n) :
    coreU (checkFinite f g h st) = coreU (checkFinite f g h (core st)) := by
  unfold checkFinite
  split <;> rfl

theorem core_checkInBounds (E E' : Env F n) (h : SameButStopping E E') (x : Vec F n) (st : St F n) :
    coreU (checkInBounds E x st) = coreU (checkInBounds E' x (core st)) := by
  unfold checkInBounds
  rw [h.lb, h.ub]
  split <;> rfl

theorem core_updateTrRadius (E E' : Env F n) (h : SameButStopping E E') (fo : Funout F n) (step : Step F n) (dv : Vec F n) (st : St F n) :
    (updateTrRadius E' fo step dv (core st)).1 = (updateTrRadius E fo step dv st).1 ∧
      core (updateTrRadius E' fo step dv (core st)).2 = core (updateTrRadius E fo step dv st).2 := by
  unfold updateTrRadius
  dsimp only [core]
  rw [h.eta, h.mu, h.gamma1, h.gamma2]
  cases isFinite fo.fval
  · exact ⟨rfl, rfl⟩
  · generalize (if le (-step.qpval) (lit 0) = true then (lit 0 : F) else _) = r
    simp only [Bool.not_true, Bool.false_eq_true, if_false]
    cases (le E.opts.eta r && !lt (norm (vadd step.ss step.ss0)) (st.deltaIter * lit (9 / 10)))
    · cases le r E.opts.mu
      · cases (lt E.opts.mu r && lt r E.opts.eta) <;> exact ⟨trivial, rfl⟩
      · exact ⟨trivial, rfl⟩
    · exact ⟨trivial, rfl⟩

theorem core_checkConvergence (E : Env F n) (step : Step F n) (fo : Funout F n) (st : St F n) :
    core (checkConvergence E step fo st) = core st := by
  unfold checkConvergence
  dsimp only
  cases (lt E.opts.mu st.trRatio && lt (FloatOps.abs (fo.fval - st.fval)) (E.opts.fatol + E.opts.frtol * FloatOps.abs st.fval))
  · cases (decide (1 < st.iteration) && lt (norm (vadd step.ss step.ss0)) E.opts.xtol)
    · cases le (norm fo.grad) E.opts.gatol
      · cases le (norm fo.grad) (E.opts.grtol * FloatOps.abs st.fval) <;> rfl
      · rfl
    · rfl
  · rfl

theorem core_trackMinimum (fo : Funout F n) (st : St F n) : core (trackMinimum fo st) = trackMinimum fo (core st) := by
  unfold trackMinimum core
  dsimp only
  cases (isFinite fo.fval && lt fo.fval st.fvalMin) <;> rfl

theorem core_core (st : St F n) : core (core st) = core st := rfl

theorem core_update (E E' : Env F n) (h : SameButStopping E E') (step : Step F n) (new old : Funout F n) (st st' : St F n) (hs : core st' = core st) :
    coreU (update E' step new old st') = coreU (update E step new old st) := by
  have key : ∀ (E E' : Env F n), SameButStopping E E' → ∀ st, coreU (update E' step new old (core st)) = coreU (update E step new old st) := by
    intro E E' h st
    unfold update
    simp only [checkInBounds]
    have h1 : (core st).happ = st.happ := rfl
    have h2 : ∀ g, updateHapp (core st) g step new old = updateHapp st g step new old := fun _ => rfl
    rw [h1, h.lb, h.ub]
    cases st.happ with
    | none =>
      cases new.hess with
      | none => rfl
      | some m =>
        simp only
        cases inBounds E.lb E.ub new.x
        · rfl
        · simp only [makeNonDegenerate, h.lb, h.ub, if_true]; rfl
    | some g =>
      simp only [h2]
      cases updateHapp st g step new old with
      | error er => rfl
      | ok g' =>
        simp only
        cases inBounds E.lb E.ub new.x
        · rfl
        · simp only [makeNonDegenerate, h.lb, h.ub, if_true]; rfl
  have hr : SameButStopping E' E' := by constructor <;> rfl
  rw [← key E' E' hr st', hs, key E E' h]

theorem core_historyRow (E E' : Env F n) (h : SameButStopping E E') (acc : Bool) (step : Step F n) (fo : Funout F n) (th : F) (sh : Mat F n n) (st st' : St F n)
    (hs : core st' = core st) : historyRow E' acc step fo th sh st' = historyRow E acc step fo th sh st := by
  have h1 : historyRow E' acc step fo th sh st' = historyRow E acc step fo th sh (core st') := by
    unfold historyRow
    rw [h.evs, h.cond]
    rfl
  rw [h1, hs]
  rfl

theorem core_finish (E E' : Env F n) (h : SameButStopping E E') (st : St F n) (old : Funout F n) (step : Step F n) (new : Funout F n) :
    coreE (finish E' (core st) old step new) = coreE (finish E st old step new) := by
  have hI : trInput E' (preIter (core st)) = trInput E (preIter st) := by
    unfold trInput; rw [h.lb, h.ub, h.thetaMax]; rfl
  have hr := core_updateTrRadius E E' h new step (trInput E (preIter st)).dv (afterEval st step (.ok new))
  have hr' : radiusStep E' (core st) step new = updateTrRadius E' new step (trInput E (preIter st)).dv (core (afterEval st step (.ok new))) := by
    unfold radiusStep; rw [hI]; rfl
  have h1 : (radiusStep E' (core st) step new).1 = (radiusStep E st step new).1 := by rw [hr', hr.1]; rfl
  have h2 : core (postCheck E' (core st) step new) = core (postCheck E st step new) := by
    unfold postCheck
    rw [core_trackMinimum, core_trackMinimum, core_checkConvergence, core_checkConvergence, hr', hr.2]
    rfl
  unfold finish
  rw [h1, hI, h.history]
  have h3 : coreU (if (radiusStep E st step new).1 then update E' step new old (postCheck E' (core st) step new) else .ok (postCheck E' (core st) step new)) =
      coreU (if (radiusStep E st step new).1 then update E step new old (postCheck E st step new) else .ok (postCheck E st step new)) := by
    split
    · exact core_update E E' h step new old _ _ h2
    · show Except.ok _ = Except.ok _
      rw [h2]
  revert h3
  generalize (if (radiusStep E st step new).1 then update E' step new old (postCheck E' (core st) step new) else .ok (postCheck E' (core st) step new)) = r'
  generalize (if (radiusStep E st step new).1 then update E step new old (postCheck E st step new) else .ok (postCheck E st step new)) = r
  intro h3
  cases r' with
  | error e' =>
    cases r with
    | error e => simp only [coreU, Except.error.injEq] at h3; simp only [coreE, h3]
    | ok s => cases h3
  | ok s' =>
    cases r with
    | error e => cases h3
    | ok s =>
      have hs : core s' = core s := by simpa [coreU] using h3
      simp only
      cases E.opts.history
      · simp only [Bool.false_eq_true, if_false, coreE, hs]
      · simp only [if_true, core_historyRow E E' h _ _ _ _ _ s s' hs]
        cases historyRow E (radiusStep E st step new).1 step new (trInput E (preIter st)).theta (trInput E (preIter st)).prob.shess s with
        | error e => simp only [coreE, hs]
        | ok row =>
          simp only [coreE]
          have : s'.history = s.history := (congrArg St.history hs : (core s').history = (core s).history)
          rw [this]
          congr 2
          exact congrArg (fun t : St F n => { t with history := appendRow s.history row }) hs

theorem core_iterate [LawfulFloat F] (E E' : Env F n) (h : SameButStopping E E') (st st' : St F n) (hs : core st' = core st) (old : Funout F n) :
    coreE (iterate E' st' old) = coreE (iterate E st old) := by
  have hr : SameButStopping E' E' := by constructor <;> rfl
  have key : ∀ (E E' : Env F n), SameButStopping E E' → ∀ st, coreE (iterate E' (core st) old) = coreE (iterate E st old) := by
    intro E E' h st
    rw [iterate_eq, iterate_eq]
    have hI : trInput E' (preIter (core st)) = trInput E (preIter st) := by
      unfold trInput; rw [h.lb, h.ub, h.thetaMax]; rfl
    have hto : ∀ step, trialOut E' (core st) step = trialOut E st step := by
      intro step; unfold trialOut evaluate; rw [h.nargout, h.resfun, h.obj]; rfl
    have hfin : allFinite (core st).fval (core st).grad (some (core st).hess) = allFinite st.fval st.grad (some st.hess) := rfl
    have hpr : (core st).proposals = st.proposals := rfl
    rw [hI, hfin, hpr, h.tr]
    cases allFinite st.fval st.grad (some st.hess)
    · rfl
    · simp only [if_true, hto]
      cases E.tr st.proposals (trInput E (preIter st)) with
      | error x => rfl
      | ok step =>
        simp only
        cases trialOut E st step with
        | error x => rfl
        | ok new =>
          simp only
          cases (isFinite new.fval && !allFinite new.fval new.grad new.hess)
          · simp only [Bool.false_eq_true, if_false]
            exact core_finish E E' h st old step new
          · rfl
  rw [← key E' E' hr st', hs, key E E' h]

theorem core_setup (E E' : Env F n) (h : SameButStopping E E') (hess0 : Hess0 F) (st st' : St F n) (hs : core st' = core st) :
    coreE (setup E' hess0 st') = coreE (setup E hess0 st) := by
  have hr : SameButStopping E' E' := by constructor <;> rfl
  have key : ∀ (E E' : Env F n), SameButStopping E E' → ∀ st, coreE (setup E' hess0 (core st)) = coreE (setup E hess0 st) := by
    intro E E' h st
    unfold setup
    rw [h.nargout, h.resfun, h.obj]
    have h1 : (core st).evals = st.evals := rfl
    have h2 : (core st).x = st.x := rfl
    have h3 : (core st).happ = st.happ := rfl
    have h4 : (core st).xId = st.xId := rfl
    simp only [h1, h2, h3, h4]
    cases funEval E.nargout E.resfun (E.obj st.evals.length st.x) with
    | error e => rfl
    | ok raw =>
      simp only
      cases initialHapp st.happ hess0 raw with
      | error e => rfl
      | ok ha =>
        simp only
        cases checkdims n raw with
        | error e => rfl
        | ok u =>
          simp only
          cases raw.typed st.x st.xId with
          | none => rfl
          | some fo =>
            have hm : (core st).fvalMin = st.fvalMin := rfl
            cases hb : (isFinite fo.fval && lt fo.fval st.fvalMin) <;> cases hf : allFinite fo.fval fo.grad fo.hess <;>
              simp only [trackMinimum, checkFinite, hm, hb, hf, coreE, if_true, Bool.false_eq_true, if_false] <;> rfl
  rw [← key E' E' hr st', hs, key E E' h]

theorem checkContinue_core (E : Env F n) (st st' : St F n) (b : Bool) (h : checkContinue E st = (b, st')) : core st' = core st := by
  unfold checkContinue at h
  simp only at h
  generalize (if st.iteration = 0 then 1 else st.iteration) = m at h
  repeat' split at h
  all_goals (cases h; rfl)

/-- at the same iteration two runs that differ in the stopping options have the same path behind them -/
theorem head_core [LawfulFloat F] (E E' : Env F n) (hE : SameButStopping E E') (x0 : Vec F n) (startId : String) (hess0 : Hess0 F) (st0 : St F n) (k : ℕ) (st st' : St F n)
    (cur cur' : Funout F n) (h : LoopHead E x0 startId hess0 st0 k st cur) (h' : LoopHead E' x0 startId hess0 st0 k st' cur') :
    core st' = core st ∧ cur' = cur := by
  induction k generalizing st cur st' cur' with
  | zero =>
    cases h with
    | start s1 _ _ hb hs =>
      cases h' with
      | start s1' _ _ hb' hs' =>
        have e1 : core s1' = core s1 := by
          unfold checkInBounds at hb hb'
          split at hb
          · split at hb'
            · cases hb; cases hb'
              unfold startState makeNonDegenerate reset
              rw [hE.lb, hE.ub, hE.deltaInit]
              rfl
            · cases hb'
          · cases hb
        have := core_setup E E' hE hess0 s1 s1' e1
        rw [hs, hs'] at this
        simp only [coreE, Except.ok.injEq, Prod.mk.injEq] at this
        exact this
  | succ k ih =>
    cases h with
    | next _ s s1 _ c _ hh hc hit =>
      cases h' with
      | next _ s' s1' _ c' _ hh' hc' hit' =>
        obtain ⟨h1, rfl⟩ := ih s s' c c' hh hh'
        have e1 : core s1' = core s1 := by rw [checkContinue_core _ _ _ _ hc, checkContinue_core _ _ _ _ hc', h1]
        have := core_iterate E E' hE s1 s1' e1 c'
        rw [hit, hit'] at this
        simp only [coreE, Except.ok.injEq, Prod.mk.injEq] at this
        exact this

end Fides

namespace Fides
open Spec
variable {F : Type} [FloatOps F] {n : ℕ}

theorem postCheck_ticks (E : Env F n) (st : St F n) (step : Step F n) (new : Funout F n) : (postCheck E st step new).ticks = st.ticks := by
  have h1 : ∀ s : St F n, (trackMinimum new s).ticks = s.ticks := by
    intro s; unfold trackMinimum; split <;> rfl
  have h2 : ∀ s : St F n, (checkConvergence E step new s).ticks = s.ticks := by
    intro s; unfold checkConvergence; simp only
    split
    · rfl
    · split
      · rfl
      · split
        · rfl
        · split <;> rfl
  have h3 : ∀ (dv : Vec F n) (s : St F n), (updateTrRadius E new step dv s).2.ticks = s.ticks := by
    intro dv s
    unfold updateTrRadius
    dsimp only
    cases isFinite new.fval
    · rfl
    · generalize (if le (-step.qpval) (lit 0) = true then (lit 0 : F) else _) = r
      simp only [Bool.not_true, Bool.false_eq_true, if_false]
      cases (le E.opts.eta r && !lt (norm (vadd step.ss step.ss0)) (s.deltaIter * lit (9 / 10)))
      · cases le r E.opts.mu
        · cases (lt E.opts.mu r && lt r E.opts.eta) <;> rfl
        · rfl
      · rfl
  unfold postCheck
  rw [h1, h2]
  unfold radiusStep
  rw [h3]
  rfl

theorem update_ticks (E : Env F n) (step : Step F n) (new old : Funout F n) (st s : St F n) (h : update E step new old st = .ok s) : s.ticks = st.ticks := by
  unfold update at h
  simp only [checkInBounds] at h
  split at h
  · cases h
  · rename_i s1 h1
    have e : s1.ticks = st.ticks := by
      split at h1
      · split at h1
        · cases h1
        · cases h1; rfl
      · split at h1
        · cases h1
        · cases h1; rfl
    split at h
    · cases h
    · rename_i s2 h2
      split at h2
      · cases h2; cases h; exact e
      · cases h2

theorem iterate_ticks [LawfulFloat F] (E : Env F n) (st s : St F n) (old cur : Funout F n) (h : iterate E st old = .ok (s, cur)) : s.ticks = st.ticks := by
  rw [iterate_eq] at h
  split at h
  · split at h
    · cases h
    · split at h
      · cases h
      · split at h
        · cases h
        · rename_i step _ _ new _ _
          unfold finish at h
          split at h
          · cases h
          · rename_i s1 h1
            have e : s1.ticks = st.ticks := by
              split at h1
              · rw [update_ticks _ _ _ _ _ _ h1, postCheck_ticks]
              · cases h1; rw [postCheck_ticks]
            split at h
            · split at h
              · cases h
              · cases h; exact e
            · cases h; exact e
  · cases h

/-- number of clock readings up to the `k`-th loop head -/
theorem head_ticks [LawfulFloat F] (E : Env F n) (x0 : Vec F n) (startId : String) (hess0 : Hess0 F) (st0 : St F n) (k : ℕ) (st : St F n) (cur : Funout F n)
    (h : LoopHead E x0 startId hess0 st0 k st cur) : st.ticks = st0.ticks + 1 + k := by
  induction k generalizing st cur with
  | zero =>
    cases h with
    | start s1 _ _ hb hs =>
      have e1 : s1.ticks = st0.ticks + 1 := by
        unfold checkInBounds at hb
        split at hb
        · cases hb; rfl
        · cases hb
      unfold setup at hs
      split at hs
      · cases hs
      · simp only at hs
        split at hs
        · cases hs
        · split at hs
          · cases hs
          · split at hs
            · cases hs
            · unfold checkFinite at hs
              split at hs
              · cases hs
              · rename_i s2 h2
                cases hs
                split at h2
                · cases h2
                  have h1 : ∀ (fo : Funout F n) (s : St F n), (trackMinimum fo s).ticks = s.ticks := by
                    intro fo s; unfold trackMinimum; split <;> rfl
                  show (trackMinimum _ _).ticks = _
                  rw [h1]
                  exact e1
                · cases h2
  | succ k ih =>
    cases h with
    | next _ s s1 _ c _ hh hc hit =>
      obtain ⟨rfl, _⟩ := checkContinue_true E s s1 hc
      rw [iterate_ticks _ _ _ _ _ hit]
      show s.ticks + 1 = _
      rw [ih _ _ hh]; omega

end Fides
