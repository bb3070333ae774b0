import Verif.Lemmas.Shift
import Verif.Spec.History

/-! Helper lemmas: recording the history does not influence a run. -/

set_option linter.unusedSectionVars false

namespace Fides
open Spec
variable {F : Type} [FloatOps F] [LawfulFloat F] {n : ℕ}

/-- the same state with another history -/
def wh (h : History F) (st : St F n) : St F n := { st with history := h }

variable (E : Env F n) (b : Bool)

theorem checkContinue_wh (h : History F) (st : St F n) :
    checkContinue (E.recording b) (wh h st) = ((checkContinue E st).1, wh h (checkContinue E st).2) := by
  unfold checkContinue
  dsimp (config := {instances := true}) only [Env.recording, wh]
  cases hc : st.converged
  · simp only [Bool.false_eq_true, if_false]
    by_cases h2 : E.opts.maxiter ≤ (st.iteration : Int)
    · simp only [h2, if_true]
    · simp only [h2, if_false]
      generalize (if st.iteration = 0 then 1 else st.iteration) = m
      cases lt (E.opts.maxtime - (E.clock st.ticks - st.starttime)) ((E.clock st.ticks - st.starttime) / lit (m : ℚ))
      · cases lt st.delta spacing1
        · rfl
        · rfl
      · rfl
  · simp only [if_true]; rw [← hc]

theorem updateTrRadius_wh (h : History F) (fo : Funout F n) (step : Step F n) (dv : Vec F n) (st : St F n) :
    updateTrRadius (E.recording b) fo step dv (wh h st) =
      ((updateTrRadius E fo step dv st).1, wh h (updateTrRadius E fo step dv st).2) := by
  unfold updateTrRadius
  dsimp (config := {instances := true}) only [Env.recording, wh]
  cases isFinite fo.fval
  · rfl
  · generalize (if le (-step.qpval) (lit 0) = true then (lit 0 : F) else _) = r
    simp only [Bool.not_true, Bool.false_eq_true, if_false]
    cases (le E.opts.eta r && !lt (norm (vadd step.ss step.ss0)) (st.deltaIter * lit (9 / 10)))
    · cases le r E.opts.mu
      · cases (lt E.opts.mu r && lt r E.opts.eta) <;> rfl
      · rfl
    · rfl

theorem checkConvergence_wh (h : History F) (step : Step F n) (fo : Funout F n) (st : St F n) :
    checkConvergence (E.recording b) step fo (wh h st) = wh h (checkConvergence E step fo st) := by
  unfold checkConvergence
  dsimp (config := {instances := true}) only [Env.recording, wh]
  cases (lt E.opts.mu st.trRatio && lt (FloatOps.abs (fo.fval - st.fval)) (E.opts.fatol + E.opts.frtol * FloatOps.abs st.fval))
  · cases (decide (1 < st.iteration) && lt (norm (vadd step.ss step.ss0)) E.opts.xtol)
    · cases le (norm fo.grad) E.opts.gatol
      · cases le (norm fo.grad) (E.opts.grtol * FloatOps.abs st.fval) <;> rfl
      · rfl
    · rfl
  · rfl

theorem trackMinimum_wh (h : History F) (fo : Funout F n) (st : St F n) :
    trackMinimum fo (wh h st) = wh h (trackMinimum fo st) := by
  unfold trackMinimum wh
  simp only
  cases (isFinite fo.fval && lt fo.fval st.fvalMin) <;> rfl

theorem postCheck_wh (h : History F) (step : Step F n) (new : Funout F n) (st : St F n) :
    postCheck (E.recording b) (wh h st) step new = wh h (postCheck E st step new) ∧
      (radiusStep (E.recording b) (wh h st) step new).1 = (radiusStep E st step new).1 := by
  have hr : radiusStep (E.recording b) (wh h st) step new = ((radiusStep E st step new).1, wh h (radiusStep E st step new).2) := by
    unfold radiusStep
    exact updateTrRadius_wh E b h new step _ (afterEval st step (.ok new))
  refine ⟨?_, by rw [hr]⟩
  unfold postCheck
  rw [hr]
  simp only
  rw [checkConvergence_wh, trackMinimum_wh]

theorem update_wh (h : History F) (step : Step F n) (new old : Funout F n) (st : St F n) :
    (∀ s, update E step new old st = .ok s → update (E.recording b) step new old (wh h st) = .ok (wh h s)) ∧
    ∀ er s, update E step new old st = .error (er, s) → update (E.recording b) step new old (wh h st) = .error (er, wh h s) := by
  unfold update
  simp only [checkInBounds]
  have h1 : (wh h st).happ = st.happ := rfl
  have h2 : ∀ g, updateHapp (wh h st) g step new old = updateHapp st g step new old := fun _ => rfl
  have h3 : (E.recording b).lb = E.lb := rfl
  have h4 : (E.recording b).ub = E.ub := rfl
  rw [h1, h3, h4]
  cases st.happ with
  | none =>
    cases new.hess with
    | none => exact ⟨fun _ h => (by cases h), fun _ _ h => by cases h; rfl⟩
    | some m =>
      simp only
      cases inBounds E.lb E.ub new.x
      · exact ⟨fun _ h => (by cases h), fun _ _ h => by cases h; rfl⟩
      · exact ⟨fun _ h => by cases h; rfl, fun _ _ h => (by cases h)⟩
  | some g =>
    simp only [h2]
    cases updateHapp st g step new old with
    | error er => exact ⟨fun _ h => (by cases h), fun _ _ h => by cases h; rfl⟩
    | ok g' =>
      simp only
      cases inBounds E.lb E.ub new.x
      · exact ⟨fun _ h => (by cases h), fun _ _ h => by cases h; rfl⟩
      · exact ⟨fun _ h => by cases h; rfl, fun _ _ h => (by cases h)⟩

theorem historyRow_quiet (hq : Quiet E) (acc : Bool) (step : Step F n) (fo : Funout F n) (th : F) (shs : Mat F n n) (st : St F n) :
    ∃ row, historyRow E acc step fo th shs st = .ok row := by
  cases h : historyRow E acc step fo th shs st with
  | ok row => exact ⟨row, rfl⟩
  | error e =>
    exfalso
    have hevs : ∀ m x, E.evs m ≠ .error x := fun m x hx => by obtain ⟨v, hv⟩ := hq.1 m; rw [hx] at hv; cases hv
    have hcond : ∀ m x, E.cond m ≠ .error x := fun m x hx => by obtain ⟨v, hv⟩ := hq.2 m; rw [hx] at hv; cases hv
    unfold historyRow at h
    split at h
    · rename_i he; exact hevs _ _ he
    · simp only at h
      split at h
      · rename_i he
        split at he
        · cases he
        · split at he
          · exact hevs _ _ he
          · cases he
      · split at h
        · rename_i he
          repeat' split at he
          all_goals first
            | exact hevs _ _ he
            | cases he
        · split at h
          · rename_i he; exact hcond _ _ he
          · split at h
            · rename_i he; exact hcond _ _ he
            · cases h

theorem finish_wh (hq : Quiet E) (hb : E.opts.history = false) (h : History F) (step : Step F n) (new old : Funout F n) (st : St F n) :
    (∀ p, finish E st old step new = .ok p → ∃ h', finish (E.recording b) (wh h st) old step new = .ok (wh h' p.1, p.2)) ∧
    ∀ er s, finish E st old step new = .error (er, s) → ∃ h', finish (E.recording b) (wh h st) old step new = .error (er, wh h' s) := by
  obtain ⟨hp, hr⟩ := postCheck_wh E b h step new st
  have hti : trInput (E.recording b) (preIter (wh h st)) = trInput E (preIter st) := rfl
  unfold finish
  rw [hp, hr, hti]
  have hop : (E.recording b).opts.history = b := rfl
  have key : (∀ s, (if (radiusStep E st step new).1 then update E step new old (postCheck E st step new) else .ok (postCheck E st step new)) = .ok s →
      (if (radiusStep E st step new).1 then update (E.recording b) step new old (wh h (postCheck E st step new)) else .ok (wh h (postCheck E st step new))) = .ok (wh h s)) ∧
      ∀ er s, (if (radiusStep E st step new).1 then update E step new old (postCheck E st step new) else .ok (postCheck E st step new)) = .error (er, s) →
      (if (radiusStep E st step new).1 then update (E.recording b) step new old (wh h (postCheck E st step new)) else .ok (wh h (postCheck E st step new))) = .error (er, wh h s) := by
    split
    · exact update_wh E b h step new old _
    · exact ⟨fun _ h => by cases h; rfl, fun _ _ h => (by cases h)⟩
  revert key
  generalize (if (radiusStep E st step new).1 then update E step new old (postCheck E st step new) else .ok (postCheck E st step new)) = r
  generalize (if (radiusStep E st step new).1 then update (E.recording b) step new old (wh h (postCheck E st step new)) else Except.ok (wh h (postCheck E st step new))) = r'
  generalize (radiusStep E st step new).1 = acc
  intro key
  cases r with
  | error x =>
    obtain ⟨er, s⟩ := x
    have := key.2 er s rfl
    subst this
    exact ⟨fun _ h => (by cases h), fun _ _ hh => by cases hh; exact ⟨h, rfl⟩⟩
  | ok s =>
    have := key.1 s rfl
    subst this
    simp only [hb, hop, Bool.false_eq_true, if_false]
    refine ⟨?_, fun _ _ h => (by cases h)⟩
    intro p hp
    cases hp
    cases b
    · exact ⟨h, rfl⟩
    · simp only [if_true]
      obtain ⟨row, hrow⟩ := historyRow_quiet (E.recording true) hq acc step new (trInput E (preIter st)).theta
        (trInput E (preIter st)).prob.shess (wh h s)
      rw [hrow]
      exact ⟨_, rfl⟩

theorem iterate_wh (hq : Quiet E) (hb : E.opts.history = false) (h : History F) (old : Funout F n) (st : St F n) :
    (∀ p, iterate E st old = .ok p → ∃ h', iterate (E.recording b) (wh h st) old = .ok (wh h' p.1, p.2)) ∧
    ∀ er s, iterate E st old = .error (er, s) → ∃ h', iterate (E.recording b) (wh h st) old = .error (er, wh h' s) := by
  rw [iterate_eq, iterate_eq]
  have hti : trInput (E.recording b) (preIter (wh h st)) = trInput E (preIter st) := rfl
  have htr : (E.recording b).tr (wh h st).proposals = E.tr st.proposals := rfl
  have hfin : allFinite (wh h st).fval (wh h st).grad (some (wh h st).hess) = allFinite st.fval st.grad (some st.hess) := rfl
  have hto : ∀ step, trialOut (E.recording b) (wh h st) step = trialOut E st step := fun _ => rfl
  rw [hti, htr, hfin]
  cases allFinite st.fval st.grad (some st.hess)
  · exact ⟨fun _ h => (by cases h), fun _ _ hh => by cases hh; exact ⟨h, rfl⟩⟩
  · simp only [if_true, hto]
    cases E.tr st.proposals (trInput E (preIter st)) with
    | error x => exact ⟨fun _ h => (by cases h), fun _ _ hh => by cases hh; exact ⟨h, rfl⟩⟩
    | ok step =>
      simp only
      cases trialOut E st step with
      | error x => exact ⟨fun _ h => (by cases h), fun _ _ hh => by cases hh; exact ⟨h, rfl⟩⟩
      | ok new =>
        simp only
        cases (isFinite new.fval && !allFinite new.fval new.grad new.hess)
        · simp only [Bool.false_eq_true, if_false]
          exact finish_wh E b hq hb h step new old st
        · exact ⟨fun _ h => (by cases h), fun _ _ hh => by cases hh; exact ⟨h, rfl⟩⟩

theorem loop_wh (hq : Quiet E) (hb : E.opts.history = false) (fuel : ℕ) (h : History F) (old : Funout F n) (st : St F n) :
    (∀ s, loop E fuel st old = .ok s → ∃ h', loop (E.recording b) fuel (wh h st) old = .ok (wh h' s)) ∧
    ∀ er s, loop E fuel st old = .error (er, s) → ∃ h', loop (E.recording b) fuel (wh h st) old = .error (er, wh h' s) := by
  induction fuel generalizing h old st with
  | zero =>
    rw [loop, loop, checkContinue_wh]
    cases checkContinue E st with
    | mk g s =>
      cases g
      · exact ⟨fun _ hh => by cases hh; exact ⟨h, rfl⟩, fun _ _ hh => (by cases hh)⟩
      · exact ⟨fun _ hh => (by cases hh), fun _ _ hh => by cases hh; exact ⟨h, rfl⟩⟩
  | succ fuel ih =>
    rw [loop, loop, checkContinue_wh]
    cases checkContinue E st with
    | mk g s =>
      cases g
      · exact ⟨fun _ hh => by cases hh; exact ⟨h, rfl⟩, fun _ _ hh => (by cases hh)⟩
      · simp only
        have hi := iterate_wh E b hq hb h old s
        cases hit : iterate E s old with
        | error x =>
          obtain ⟨h', hh'⟩ := hi.2 x.1 x.2 hit
          rw [hh']
          exact ⟨fun _ hh => (by cases hh), fun _ _ hh => by cases hh; exact ⟨h', rfl⟩⟩
        | ok p =>
          obtain ⟨h', hh'⟩ := hi.1 p hit
          rw [hh']
          exact ih h' p.2 p.1

theorem minimize_recording (hq : Quiet E) (hb : E.opts.history = false) (fuel : ℕ) (x0 : Vec F n) (startId : String) (hess0 : Hess0 F)
    (st0 : St F n) :
    (∀ s, minimize E fuel x0 startId hess0 st0 = .ok s →
      ∃ h', minimize (E.recording b) fuel x0 startId hess0 st0 = writeHistory (E.recording b) (wh h' s)) ∧
    ∀ er s, minimize E fuel x0 startId hess0 st0 = .error (er, s) →
      ∃ h', minimize (E.recording b) fuel x0 startId hess0 st0 = .error (er, wh h' s) := by
  by_cases hn : n = 0
  · subst hn
    unfold minimize
    simp only [if_true]
    exact ⟨fun _ hh => (by cases hh), fun _ _ hh => by cases hh; exact ⟨[], rfl⟩⟩
  · unfold minimize
    simp only [hn, if_false]
    rw [show makeNonDegenerate (E.recording b) { reset (E.recording b) startId st0 with x := x0, xId := (reset (E.recording b) startId st0).nextId, nextId := (reset (E.recording b) startId st0).nextId + 1 } = startState E x0 startId st0 from rfl]
    rw [show makeNonDegenerate E { reset E startId st0 with x := x0, xId := (reset E startId st0).nextId, nextId := (reset E startId st0).nextId + 1 } = startState E x0 startId st0 from rfl]
    have hcb : ∀ x (st : St F n), checkInBounds (E.recording b) x st = checkInBounds E x st := fun _ _ => rfl
    have hsu : ∀ st : St F n, setup (E.recording b) hess0 st = setup E hess0 st := fun _ => rfl
    simp only [hcb, hsu]
    cases hcc : checkInBounds E (startState E x0 startId st0).x (startState E x0 startId st0) with
    | error x =>
      exact ⟨fun _ hh => (by cases hh), fun _ s hh => by cases hh; exact ⟨s.history, rfl⟩⟩
    | ok st1 =>
      simp only
      cases setup E hess0 st1 with
      | error x =>
        exact ⟨fun _ hh => (by cases hh), fun _ s hh => by cases hh; exact ⟨s.history, rfl⟩⟩
      | ok p =>
        simp only
        have hl := loop_wh E b hq hb fuel p.1.history p.2 p.1
        rw [show wh p.1.history p.1 = p.1 from rfl] at hl
        cases hlo : loop E fuel p.1 p.2 with
        | error x =>
          obtain ⟨h', hh'⟩ := hl.2 x.1 x.2 hlo
          rw [hh']
          exact ⟨fun _ hh => (by cases hh), fun _ _ hh => by cases hh; exact ⟨h', rfl⟩⟩
        | ok s =>
          obtain ⟨h', hh'⟩ := hl.1 s hlo
          rw [hh']
          simp only
          have : writeHistory E s = .ok s := by unfold writeHistory; rw [hb]; rfl
          rw [this]
          exact ⟨fun _ hh => by cases hh; exact ⟨h', rfl⟩, fun _ _ hh => (by cases hh)⟩

end Fides
