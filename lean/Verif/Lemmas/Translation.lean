import Verif.Spec.Translation
import Verif.Lemmas.Shift
import Verif.Lemmas.NumLawful

/-! Helper lemmas: a pass on a translated problem mimics the pass on the original one. -/

set_option linter.unusedSectionVars false

namespace Fides
open Num Spec
variable {n : ℕ} (c : Fin n → ℝ)

theorem add_fin_sub (a b : Num) (t : ℝ) : (a + fin t) - (b + fin t) = a - b := by
  cases a <;> cases b <;> simp [add_sub_add_right_eq_sub]

theorem add_fin_comm (a b : Num) (t : ℝ) : (a + fin t) + b = (a + b) + fin t := by
  cases a <;> cases b <;> simp [add_right_comm] <;> rfl

theorem sub_fin_comm (a b : Num) (t : ℝ) : (a + fin t) - b = (a - b) + fin t := by
  cases a <;> cases b <;> simp [add_sub_right_comm]

theorem add_fin_finite (a : Num) (t : ℝ) : isFinite (a + fin t) = isFinite a := by
  cases a <;> simp

theorem moved_sub (x y : Vec Num n) (i : Fin n) : moved c x i - moved c y i = x i - y i := add_fin_sub _ _ _

theorem vadd_moved (x s : Vec Num n) : vadd (moved c x) s = moved c (vadd x s) := by
  funext i; exact add_fin_comm _ _ _

/-! ## steps -/

noncomputable def mvP (P : Prob Num n) : Prob Num n := { P with x := moved c P.x, lb := moved c P.lb, ub := moved c P.ub }
noncomputable def mvS (st : Step Num n) : Step Num n := { st with x := moved c st.x }
noncomputable def mvI (I : TRIn Num n) : TRIn Num n := { I with x := moved c I.x, lb := moved c I.lb, ub := moved c I.ub }

theorem mv_init (P : Prob Num n) (t : StepType) (l : List (Vec Num n)) : Step.init (mvP c P) t l = mvS c (Step.init P t l) := rfl

theorem mv_stepBack (P : Prob Num n) (st : Step Num n) : (mvS c st).stepBack (mvP c P) = mvS c (st.stepBack P) := by
  unfold Step.stepBack mvS mvP
  simp only [moved_sub]

theorem mv_computeStep (O : SubOracles Num) (P : Prob Num n) (st : Step Num n) : (mvS c st).computeStep O (mvP c P) = (st.computeStep O P).map (mvS c) := by
  have h1 : (mvP c P).shess = P.shess := rfl
  unfold Step.computeStep
  rw [h1]
  have h2 : (mvS c st).subspace = st.subspace := rfl
  have h3 : (mvS c st).ss0 = st.ss0 := rfl
  have h4 : (mvP c P).sg = P.sg := rfl
  have h5 : (mvP c P).delta = P.delta := rfl
  simp only [h2, h3, h4, h5]
  rcases h : st.subspace with _ | ⟨a, _ | ⟨b, l⟩⟩
  · simp only [Except.map, mvS, h]
  · simp only [Except.map, mvS, mvP, h]
  · simp only
    cases solveNd O (chess P.shess (a :: b :: l)) (cg P.sg (a :: b :: l)) (FloatOps.sqrt (pyMax (P.delta * P.delta - norm st.ss0 * norm st.ss0) (lit 0))) with
    | error e => rfl
    | ok r => simp only [Except.map, mvS, mvP, h]

theorem mv_calculate (O : SubOracles Num) (P : Prob Num n) (st : Step Num n) : (mvS c st).calculate O (mvP c P) = (st.calculate O P).map (mvS c) := by
  unfold Step.calculate
  rw [mv_computeStep]
  cases st.computeStep O P with
  | error e => rfl
  | ok s =>
    simp only [Except.map]
    rw [mv_stepBack]
    rfl

theorem mv_stepFull (O : Oracles Num) (P : Prob Num n) : stepFull O (mvP c P) = (stepFull O P).map (mvS c) := by
  unfold stepFull
  rw [mv_init, mv_calculate]

theorem mv_step2d (O : Oracles Num) (P : Prob Num n) : step2d O (mvP c P) = (step2d O P).map (mvS c) := by
  have h : subspace2d O (mvP c P) = subspace2d O P := rfl
  unfold step2d
  rw [h]
  cases subspace2d O P with
  | error e => rfl
  | ok r =>
    obtain ⟨cols, pd, nw⟩ := r
    exact mv_calculate c O.sub P { Step.init P .twoD cols with posdef := pd, newton := nw }

theorem mv_steihaugLoop (P : Prob Num n) (eps : Num) (k : ℕ) (z r d : Vec Num n) : steihaugLoop (mvP c P) eps k z r d = steihaugLoop P eps k z r d := by
  induction k generalizing z r d with
  | zero => rfl
  | succ k ih =>
    unfold steihaugLoop
    simp only [ih]
    rfl

theorem mv_stepSteihaug (fuel : ℕ) (P : Prob Num n) : stepSteihaug fuel (mvP c P) = (stepSteihaug fuel P).map (mvS c) := by
  unfold stepSteihaug
  simp only [mv_steihaugLoop]
  have h4 : (mvP c P).sg = P.sg := rfl
  simp only [h4]
  cases lt (norm P.sg) (pyMin (lit (1 / 2)) (FloatOps.sqrt (norm P.sg)) * norm P.sg)
  · simp only [Bool.false_eq_true, if_false]
    cases steihaugLoop P (pyMin (lit (1 / 2)) (FloatOps.sqrt (norm P.sg)) * norm P.sg) fuel vzero P.sg (vneg P.sg) with
    | error e => rfl
    | ok o =>
      simp only [Except.map]
      rw [mv_init]
      have := mv_stepBack c P { Step.init P .cgs o.subspace with sc := o.sc, ss := o.ss, ss0 := o.ss0, s := sdot P.scaling (vadd o.ss o.ss0) }
      exact congrArg (fun s : Step Num n => Except.ok { s with qpval := quadraticForm P.shess P.sg (vadd s.ss s.ss0) }) this
  · rfl

theorem mv_reflectInit (P : Prob Num n) (st : Step Num n) : reflectInit (mvP c P) (mvS c st) = mvS c (reflectInit P st) := by
  unfold reflectInit mvS mvP
  simp only [vadd_moved]
  rfl

theorem mv_stepReflected (O : Oracles Num) (P : Prob Num n) (st : Step Num n) : stepReflected O (mvP c P) (mvS c st) = (stepReflected O P st).map (mvS c) := by
  unfold stepReflected
  rw [mv_reflectInit, mv_calculate]

theorem mv_truncateInit (P : Prob Num n) (st : Step Num n) : truncateInit (mvP c P) (mvS c st) = mvS c (truncateInit P st) := by
  unfold truncateInit mvS mvP
  simp only [vadd_moved]
  rfl

theorem mv_stepTruncated (O : Oracles Num) (P : Prob Num n) (st : Step Num n) : stepTruncated O (mvP c P) (mvS c st) = (stepTruncated O P st).map (mvS c) := by
  unfold stepTruncated
  rw [mv_truncateInit, mv_calculate]

theorem mv_stepGradient (O : Oracles Num) (P : Prob Num n) : stepGradient O (mvP c P) = (stepGradient O P).map (mvS c) := by
  unfold stepGradient
  rw [mv_init, mv_calculate]
  rfl

theorem mv_stepRefined (O : Oracles Num) (hO : RefineInvariant O) (P : Prob Num n) (st : Step Num n) :
    stepRefined O (mvP c P) (mvS c st) = (stepRefined O P st).map (mvS c) := by
  unfold stepRefined
  rw [show O.refine (mvP c P) (mvS c st) = O.refine P st from hO n c P st]
  cases O.refine P st with
  | error e => rfl
  | ok sc =>
    have := mv_stepBack c P { Step.init P .ref st.subspace with
      sc := sc, ss := subDot st.subspace sc, s := sdot P.scaling (subDot st.subspace sc), reflIdx := st.reflIdx, truncIdx := st.truncIdx }
    exact congrArg (fun s : Step Num n => Except.ok { s with qpval := quadraticForm P.shess P.sg s.ss }) this

theorem mv_reflectLoop (O : Oracles Num) (P : Prob Num n) (k : ℕ) (st : Step Num n) :
    reflectLoop O (mvP c P) k (mvS c st) = (reflectLoop O P k st).map (List.map (mvS c)) := by
  induction k generalizing st with
  | zero => rfl
  | succ k ih =>
    unfold reflectLoop
    show (if feq st.alpha (lit 1) = true then _ else _) = _
    cases feq st.alpha (lit 1)
    · simp only [Bool.false_eq_true, if_false]
      rw [mv_stepReflected]
      cases stepReflected O P st with
      | error e => rfl
      | ok s =>
        simp only [Except.map]
        rw [ih]
        cases reflectLoop O P k s <;> rfl
    · rfl

theorem mv_stepbackReflect (O : Oracles Num) (P : Prob Num n) (st : Step Num n) :
    stepbackReflect O (mvP c P) (mvS c st) = (stepbackReflect O P st).map (List.map (mvS c)) := by
  unfold stepbackReflect
  rw [mv_stepReflected]
  cases stepReflected O P st with
  | error e => rfl
  | ok s =>
    simp only [Except.map]
    rw [mv_reflectLoop]
    cases reflectLoop O P (n - 1) s <;> rfl

theorem mv_truncateLoop (O : Oracles Num) (P : Prob Num n) (k : ℕ) (st : Step Num n) :
    truncateLoop O (mvP c P) k (mvS c st) = (truncateLoop O P k st).map (List.map (mvS c)) := by
  induction k generalizing st with
  | zero =>
    unfold truncateLoop
    show (if (st.subspace.isEmpty || feq st.alpha (lit 1)) = true then _ else _) = _
    cases (st.subspace.isEmpty || feq st.alpha (lit 1)) <;> rfl
  | succ k ih =>
    unfold truncateLoop
    show (if st.subspace.isEmpty = true then _ else if feq st.alpha (lit 1) = true then _ else _) = _
    cases st.subspace.isEmpty
    · cases feq st.alpha (lit 1)
      · simp only [Bool.false_eq_true, if_false]
        rw [mv_stepTruncated]
        cases stepTruncated O P st with
        | error e => rfl
        | ok s =>
          simp only [Except.map]
          rw [ih]
          cases truncateLoop O P k s <;> rfl
      · rfl
    · rfl

theorem mv_stepbackTruncate (O : Oracles Num) (P : Prob Num n) (fuel : ℕ) (st : Step Num n) :
    stepbackTruncate O (mvP c P) fuel (mvS c st) = (stepbackTruncate O P fuel st).map (List.map (mvS c)) := by
  unfold stepbackTruncate
  rw [mv_stepTruncated]
  cases stepTruncated O P st with
  | error e => rfl
  | ok s =>
    simp only [Except.map]
    rw [mv_truncateLoop]
    cases truncateLoop O P fuel s <;> rfl

theorem mv_trStep (O : Oracles Num) (fuel : ℕ) (P : Prob Num n) (dim : SubSpaceDim) : trStep O fuel (mvP c P) dim = (trStep O fuel P dim).map (mvS c) := by
  cases dim
  · exact mv_step2d c O P
  · exact mv_stepFull c O P
  · exact mv_stepSteihaug c fuel P
  · rfl

theorem mv_stepbackCandidates (O : Oracles Num) (hO : RefineInvariant O) (fuel : ℕ) (P : Prob Num n) (strat : StepBackStrategy) (tr : Step Num n) :
    stepbackCandidates O fuel (mvP c P) strat (mvS c tr) = (stepbackCandidates O fuel P strat tr).map (List.map (mvS c)) := by
  cases strat
  · unfold stepbackCandidates
    simp only
    rw [mv_stepReflected]
    cases stepReflected O P tr <;> rfl
  · exact mv_stepbackReflect c O P tr
  · exact mv_stepbackTruncate c O P fuel tr
  · unfold stepbackCandidates
    simp only
    rw [mv_stepbackReflect, mv_stepbackTruncate]
    cases stepbackReflect O P tr with
    | error e => rfl
    | ok a =>
      cases stepbackTruncate O P fuel tr with
      | error e => rfl
      | ok b => simp [Except.map]
  · unfold stepbackCandidates
    simp only
    rw [mv_stepRefined c O hO]
    show (if 1 < tr.subspace.length then _ else _) = _
    split
    · cases stepRefined O P tr <;> rfl
    · rfl
  · rfl

theorem mv_candidates (O : Oracles Num) (hO : RefineInvariant O) (fuel : ℕ) (P : Prob Num n) (dim : SubSpaceDim) (strat : StepBackStrategy) :
    candidates O fuel (mvP c P) dim strat = (candidates O fuel P dim strat).map fun r => (mvS c r.1, r.2.map (mvS c)) := by
  unfold candidates
  rw [mv_trStep]
  cases trStep O fuel P dim with
  | error e => rfl
  | ok tr =>
    simp only [Except.map]
    rw [mv_stepGradient, mv_stepbackCandidates c O hO]
    show (if (lt tr.alpha (lit 1) && decide (1 < n)) = true then _ else _) = _
    cases (lt tr.alpha (lit 1) && decide (1 < n))
    · rfl
    · simp only [if_true]
      cases stepGradient O P with
      | error e => rfl
      | ok gs =>
        simp only [Except.map]
        cases stepbackCandidates O fuel P strat tr <;> rfl

theorem argminGo_mv (a : Step Num n) (l : List (Step Num n)) :
    argminGo (fun st : Step Num n => st.qpval) (mvS c a) (l.map (mvS c)) = mvS c (argminGo (fun st : Step Num n => st.qpval) a l) := by
  induction l generalizing a with
  | nil => rfl
  | cons b l ih =>
    simp only [List.map_cons, argminGo]
    have h1 : (mvS c a).qpval = a.qpval := rfl
    have h2 : (mvS c b).qpval = b.qpval := rfl
    rw [h1, h2]
    cases isNaN a.qpval
    · simp only [Bool.false_eq_true, if_false]
      split <;> exact ih _
    · rfl

theorem mv_trustRegion (O : Oracles Num) (hO : RefineInvariant O) (fuel : ℕ) (dim : SubSpaceDim) (strat : StepBackStrategy) (I : TRIn Num n) :
    trustRegion O fuel dim strat (mvI c I) = (trustRegion O fuel dim strat I).map (mvS c) := by
  unfold trustRegion
  rw [show (mvI c I).prob = mvP c I.prob from rfl, mv_candidates c O hO]
  cases candidates O fuel I.prob dim strat with
  | error e => rfl
  | ok r =>
    simp only [Except.map]
    rw [argminGo_mv]

/-! ## the optimizer -/

section
variable {c} {E E' : Env Num n}

/-- results with translated states -/
noncomputable def mvU (c : Fin n → ℝ) : Except (PyErr × St Num n) (St Num n) → Except (PyErr × St Num n) (St Num n)
  | .error e => .error (e.1, movedState c e.2)
  | .ok s => .ok (movedState c s)

noncomputable def mvR (c : Fin n → ℝ) : Except (PyErr × St Num n) (St Num n × Funout Num n) → Except (PyErr × St Num n) (St Num n × Funout Num n)
  | .error e => .error (e.1, movedState c e.2)
  | .ok s => .ok (movedState c s.1, movedOut c s.2)

theorem mv_nudge (lb ub x : Vec Num n) : nudge (moved c lb) (moved c ub) (moved c x) = moved c (nudge lb ub x) := by
  unfold nudge
  simp only [moved_sub]
  split
  · funext i
    simp only [moved]
    cases lt (ub i - x i) degEps <;> cases lt (x i - lb i) degEps <;>
      simp only [if_true, Bool.false_eq_true, if_false, sub_fin_comm, add_fin_comm]
  · rfl

theorem mv_makeNonDegenerate (h : TranslatedProblem c E E') (st : St Num n) : makeNonDegenerate E' (movedState c st) = movedState c (makeNonDegenerate E st) := by
  unfold makeNonDegenerate
  have h1 : (movedState c st).x = moved c st.x := rfl
  rw [h.lb, h.ub, h1, mv_nudge]
  unfold movedState
  simp only
  split <;> rfl

theorem mv_inBounds (lb ub x : Vec Num n) : inBounds (moved c lb) (moved c ub) (moved c x) = inBounds lb ub x := by
  unfold inBounds
  simp only [moved_sub]

theorem mv_checkInBounds (h : TranslatedProblem c E E') (x : Vec Num n) (st : St Num n) : checkInBounds E' (moved c x) (movedState c st) = mvU c (checkInBounds E x st) := by
  unfold checkInBounds
  rw [h.lb, h.ub, mv_inBounds]
  split <;> rfl

theorem mv_trackMinimum (fo : Funout Num n) (st : St Num n) : trackMinimum (movedOut c fo) (movedState c st) = movedState c (trackMinimum fo st) := by
  unfold trackMinimum
  have h1 : (movedOut c fo).fval = fo.fval := rfl
  have h2 : (movedState c st).fvalMin = st.fvalMin := rfl
  rw [h1, h2]
  split <;> rfl

theorem mv_trInput (h : TranslatedProblem c E E') (st : St Num n) : trInput E' (movedState c st) = mvI c (trInput E st) := by
  have hv : affineV (moved c E.lb) (moved c E.ub) (moved c st.x) st.grad = affineV E.lb E.ub st.x st.grad := by
    funext i
    unfold affineV
    cases lt (st.grad i) (lit 0)
    · simp only [Bool.false_eq_true, if_false, moved_sub]
      simp only [moved, add_fin_finite]
    · simp only [if_true, moved_sub]
      simp only [moved, add_fin_finite]
  have hd : affineDv (moved c E.lb) (moved c E.ub) st.grad = affineDv E.lb E.ub st.grad := by
    funext i
    unfold affineDv
    cases lt (st.grad i) (lit 0)
    · simp only [Bool.false_eq_true, if_false, moved, add_fin_finite]
    · simp only [if_true, moved, add_fin_finite]
  unfold trInput
  have h1 : (movedState c st).x = moved c st.x := rfl
  have h2 : (movedState c st).grad = st.grad := rfl
  rw [h.lb, h.ub, h.opts, h1, h2]
  simp only [hv, hd]
  rfl

theorem mv_updateTrRadius (h : TranslatedProblem c E E') (fo : Funout Num n) (step : Step Num n) (dv : Vec Num n) (st : St Num n) :
    updateTrRadius E' (movedOut c fo) (mvS c step) dv (movedState c st) = ((updateTrRadius E fo step dv st).1, movedState c (updateTrRadius E fo step dv st).2) := by
  unfold updateTrRadius
  rw [h.opts]
  have e1 : (movedOut c fo).fval = fo.fval := rfl
  have e2 : (movedOut c fo).grad = fo.grad := rfl
  have e3 : (mvS c step).ss = step.ss := rfl
  have e4 : (mvS c step).ss0 = step.ss0 := rfl
  have e5 : (mvS c step).qpval = step.qpval := rfl
  have e6 : (movedState c st).fval = st.fval := rfl
  have e7 : (movedState c st).deltaIter = st.deltaIter := rfl
  simp only [e1, e2, e3, e4, e5, e6, e7]
  cases isFinite fo.fval
  · rfl
  · generalize (if le (-step.qpval) (lit 0) = true then (lit 0 : Num) else _) = r
    simp only [Bool.not_true, Bool.false_eq_true, if_false]
    cases (le E.opts.eta r && !lt (norm (vadd step.ss step.ss0)) (st.deltaIter * lit (9 / 10)))
    · cases le r E.opts.mu
      · cases (lt E.opts.mu r && lt r E.opts.eta) <;> rfl
      · rfl
    · rfl

theorem mv_checkConvergence (h : TranslatedProblem c E E') (step : Step Num n) (fo : Funout Num n) (st : St Num n) :
    checkConvergence E' (mvS c step) (movedOut c fo) (movedState c st) = movedState c (checkConvergence E step fo st) := by
  unfold checkConvergence
  rw [h.opts]
  have e1 : (movedOut c fo).fval = fo.fval := rfl
  have e2 : (movedOut c fo).grad = fo.grad := rfl
  have e3 : (mvS c step).ss = step.ss := rfl
  have e4 : (mvS c step).ss0 = step.ss0 := rfl
  have e5 : (movedState c st).fval = st.fval := rfl
  have e6 : (movedState c st).trRatio = st.trRatio := rfl
  have e7 : (movedState c st).iteration = st.iteration := rfl
  simp only [e1, e2, e3, e4, e5, e6, e7]
  cases (lt E.opts.mu st.trRatio && lt (FloatOps.abs (fo.fval - st.fval)) (E.opts.fatol + E.opts.frtol * FloatOps.abs st.fval))
  · cases (decide (1 < st.iteration) && lt (norm (vadd step.ss step.ss0)) E.opts.xtol)
    · cases le (norm fo.grad) E.opts.gatol
      · cases le (norm fo.grad) (E.opts.grtol * FloatOps.abs st.fval) <;> rfl
      · rfl
    · rfl
  · rfl

theorem mv_checkContinue (h : TranslatedProblem c E E') (st : St Num n) :
    checkContinue E' (movedState c st) = ((checkContinue E st).1, movedState c (checkContinue E st).2) := by
  unfold checkContinue
  rw [h.opts, h.clock]
  have e1 : (movedState c st).converged = st.converged := rfl
  have e2 : (movedState c st).iteration = st.iteration := rfl
  have e3 : (movedState c st).ticks = st.ticks := rfl
  have e4 : (movedState c st).starttime = st.starttime := rfl
  have e5 : (movedState c st).delta = st.delta := rfl
  simp only [e1, e2, e3, e4, e5]
  cases st.converged
  · by_cases h2 : E.opts.maxiter ≤ (st.iteration : Int)
    · simp only [h2, Bool.false_eq_true, if_false, if_true]; rfl
    · simp only [h2, Bool.false_eq_true, if_false]
      generalize (if st.iteration = 0 then 1 else st.iteration) = m
      cases lt (E.opts.maxtime - (E.clock st.ticks - st.starttime)) ((E.clock st.ticks - st.starttime) / lit ((m : ℕ) : ℚ))
      · cases lt st.delta spacing1 <;> rfl
      · rfl
  · rfl

theorem mv_updateHapp (st : St Num n) (g : Happ Num n) (step : Step Num n) (new old : Funout Num n) :
    updateHapp (movedState c st) g (mvS c step) (movedOut c new) (movedOut c old) = updateHapp st g step new old := rfl

theorem mv_update (h : TranslatedProblem c E E') (step : Step Num n) (new old : Funout Num n) (st : St Num n) :
    update E' (mvS c step) (movedOut c new) (movedOut c old) (movedState c st) = mvU c (update E step new old st) := by
  unfold update
  have e1 : (movedState c st).happ = st.happ := rfl
  have e2 : (movedOut c new).hess = new.hess := rfl
  have e3 : (movedOut c new).x = moved c new.x := rfl
  simp only [e1, e2, e3, mv_updateHapp, checkInBounds, h.lb, h.ub, mv_inBounds]
  cases st.happ with
  | none =>
    cases new.hess with
    | none => rfl
    | some m =>
      cases inBounds E.lb E.ub new.x
      · rfl
      · exact congrArg Except.ok (mv_makeNonDegenerate h { st with hess := m, happ := none, fval := new.fval, x := new.x, xId := new.xId, grad := new.grad })
  | some g =>
    simp only
    cases updateHapp st g step new old with
    | error er => rfl
    | ok g' =>
      cases inBounds E.lb E.ub new.x
      · rfl
      · exact congrArg Except.ok (mv_makeNonDegenerate h { st with hess := g'.getMat, happ := some g', fval := new.fval, x := new.x, xId := new.xId, grad := new.grad })

theorem mv_historyRow (h : TranslatedProblem c E E') (acc : Bool) (step : Step Num n) (fo : Funout Num n) (th : Num) (sh : Mat Num n n) (st : St Num n) :
    historyRow E' acc (mvS c step) (movedOut c fo) th sh (movedState c st) = historyRow E acc step fo th sh st := by
  unfold historyRow
  rw [h.evs, h.cond]
  rfl

theorem mv_trialPoint (st : St Num n) (step : Step Num n) : trialPoint (movedState c st) (mvS c step) = moved c (trialPoint st step) := by
  unfold trialPoint
  rw [← vadd_moved, ← vadd_moved]
  rfl

theorem mv_typed (raw : RawOut Num) (x : Vec Num n) (k : ℕ) : raw.typed (moved c x) k = (raw.typed x k).map (movedOut c) := by
  unfold RawOut.typed
  split
  · split
    · rfl
    · split <;> rfl
  · rfl

theorem mv_evaluate (h : TranslatedProblem c E E') (x : Vec Num n) (k : ℕ) (st : St Num n) :
    (evaluate E' (moved c x) k (movedState c st)).1 = (evaluate E x k st).1.map (movedOut c) := by
  unfold evaluate
  have e1 : (movedState c st).evals.length = st.evals.length := List.length_map _
  rw [h.nargout, h.resfun]
  simp only [e1, h.obj, mv_typed]
  cases funEval E.nargout E.resfun (E.obj st.evals.length x) with
  | error e => rfl
  | ok raw =>
    simp only
    cases raw.typed x k <;> rfl

theorem mv_preIter (st : St Num n) : preIter (movedState c st) = movedState c (preIter st) := rfl

theorem mv_trialOut (h : TranslatedProblem c E E') (st : St Num n) (step : Step Num n) :
    trialOut E' (movedState c st) (mvS c step) = (trialOut E st step).map (movedOut c) := by
  unfold trialOut
  rw [mv_trialPoint]
  exact mv_evaluate h _ _ { preIter st with proposals := st.proposals + 1, nextId := st.nextId + 1 }

theorem mv_afterEval (st : St Num n) (step : Step Num n) (out : Except PyErr (Funout Num n)) :
    afterEval (movedState c st) (mvS c step) (out.map (movedOut c)) = movedState c (afterEval st step out) := by
  unfold afterEval
  rw [mv_trialPoint]
  rfl

theorem mv_radiusStep (h : TranslatedProblem c E E') (st : St Num n) (step : Step Num n) (new : Funout Num n) :
    radiusStep E' (movedState c st) (mvS c step) (movedOut c new) = ((radiusStep E st step new).1, movedState c (radiusStep E st step new).2) := by
  unfold radiusStep
  rw [mv_preIter, mv_trInput h, show (Except.ok (movedOut c new) : Except PyErr (Funout Num n)) = (Except.ok new : Except PyErr (Funout Num n)).map (movedOut c) from rfl,
    mv_afterEval, ← mv_updateTrRadius h]
  rfl

theorem mv_postCheck (h : TranslatedProblem c E E') (st : St Num n) (step : Step Num n) (new : Funout Num n) :
    postCheck E' (movedState c st) (mvS c step) (movedOut c new) = movedState c (postCheck E st step new) := by
  unfold postCheck
  rw [mv_radiusStep h, mv_checkConvergence h, mv_trackMinimum]

theorem mv_finish (h : TranslatedProblem c E E') (st : St Num n) (old : Funout Num n) (step : Step Num n) (new : Funout Num n) :
    finish E' (movedState c st) (movedOut c old) (mvS c step) (movedOut c new) = mvR c (finish E st old step new) := by
  unfold finish
  rw [mv_radiusStep h, mv_postCheck h, mv_update h, h.opts, mv_preIter, mv_trInput h]
  have e1 : (mvI c (trInput E (preIter st))).theta = (trInput E (preIter st)).theta := rfl
  have e2 : (mvI c (trInput E (preIter st))).prob.shess = (trInput E (preIter st)).prob.shess := rfl
  rw [e1, e2]
  have e3 : (if (radiusStep E st step new).1 = true then mvU c (update E step new old (postCheck E st step new)) else .ok (movedState c (postCheck E st step new))) =
      mvU c (if (radiusStep E st step new).1 = true then update E step new old (postCheck E st step new) else .ok (postCheck E st step new)) := by
    split <;> rfl
  simp only [e3]
  cases (if (radiusStep E st step new).1 = true then update E step new old (postCheck E st step new) else .ok (postCheck E st step new)) with
  | error e => rfl
  | ok s =>
    simp only [mvU, mv_historyRow h]
    cases E.opts.history
    · simp only [Bool.false_eq_true, if_false, mvR]
      cases (radiusStep E st step new).1 <;> rfl
    · simp only [if_true]
      cases historyRow E (radiusStep E st step new).1 step new (trInput E (preIter st)).theta (trInput E (preIter st)).prob.shess s with
      | error e => rfl
      | ok row =>
        simp only [mvR]
        cases (radiusStep E st step new).1 <;> rfl

theorem mv_iterate (h : TranslatedProblem c E E') (htr : ∀ k I, E'.tr k (mvI c I) = (E.tr k I).map (mvS c)) (st : St Num n) (old : Funout Num n) :
    iterate E' (movedState c st) (movedOut c old) = mvR c (iterate E st old) := by
  rw [iterate_eq, iterate_eq]
  have e1 : allFinite (movedState c st).fval (movedState c st).grad (some (movedState c st).hess) = allFinite st.fval st.grad (some st.hess) := rfl
  have e2 : (movedState c st).proposals = st.proposals := rfl
  rw [e1, e2, mv_preIter, mv_trInput h, htr]
  cases allFinite st.fval st.grad (some st.hess)
  · rfl
  · simp only [if_true]
    cases E.tr st.proposals (trInput E (preIter st)) with
    | error x => rfl
    | ok step =>
      simp only [Except.map, mv_trialOut h]
      cases trialOut E st step with
      | error x =>
        simp only
        exact congrArg (fun s : St Num n => Except.error (x, s)) (mv_afterEval st step (.error x))
      | ok new =>
        simp only
        have e3 : (isFinite (movedOut c new).fval && !allFinite (movedOut c new).fval (movedOut c new).grad (movedOut c new).hess) =
          (isFinite new.fval && !allFinite new.fval new.grad new.hess) := rfl
        rw [e3]
        cases (isFinite new.fval && !allFinite new.fval new.grad new.hess)
        · simp only [Bool.false_eq_true, if_false]
          exact mv_finish h st old step new
        · exact congrArg (fun s : St Num n => Except.error (PyErr.runtimeError, { s with exitflag := .notFinite })) (mv_afterEval st step (.ok new))

theorem mv_loop (h : TranslatedProblem c E E') (htr : ∀ k I, E'.tr k (mvI c I) = (E.tr k I).map (mvS c)) (fuel : ℕ) (st : St Num n) (old : Funout Num n) :
    loop E' fuel (movedState c st) (movedOut c old) = mvU c (loop E fuel st old) := by
  induction fuel generalizing st old with
  | zero =>
    rw [loop, loop, mv_checkContinue h]
    rcases checkContinue E st with ⟨b, s⟩
    cases b <;> rfl
  | succ k ih =>
    rw [loop, loop, mv_checkContinue h]
    rcases checkContinue E st with ⟨b, s⟩
    cases b
    · rfl
    · simp only [mv_iterate h htr]
      cases iterate E s old with
      | error e => rfl
      | ok r => exact ih r.1 r.2

theorem mv_setup (h : TranslatedProblem c E E') (hess0 : Hess0 Num) (st : St Num n) : setup E' hess0 (movedState c st) = mvR c (setup E hess0 st) := by
  unfold setup
  have e1 : (movedState c st).evals.length = st.evals.length := List.length_map _
  have e2 : (movedState c st).x = moved c st.x := rfl
  have e3 : (movedState c st).happ = st.happ := rfl
  have e4 : (movedState c st).xId = st.xId := rfl
  rw [h.nargout, h.resfun]
  simp only [e1, e2, e3, e4, h.obj, mv_typed]
  cases funEval E.nargout E.resfun (E.obj st.evals.length st.x) with
  | error e => rfl
  | ok raw =>
    simp only
    cases initialHapp st.happ hess0 raw with
    | error e => rfl
    | ok ha =>
      simp only
      cases checkdims n raw with
      | error e => rfl
      | ok u =>
        simp only
        cases raw.typed st.x st.xId with
        | none => rfl
        | some fo =>
          have hm : (movedState c st).fvalMin = st.fvalMin := rfl
          have hf' : (movedOut c fo).fval = fo.fval := rfl
          have hg' : (movedOut c fo).grad = fo.grad := rfl
          have hh' : (movedOut c fo).hess = fo.hess := rfl
          cases hb : (isFinite fo.fval && lt fo.fval st.fvalMin) <;> cases hf : allFinite fo.fval fo.grad fo.hess <;>
            simp only [Option.map, trackMinimum, checkFinite, hm, hf', hg', hh', hb, hf, mvR, if_true, Bool.false_eq_true, if_false] <;> rfl

theorem mv_writeHistory (h : TranslatedProblem c E E') (st : St Num n) : writeHistory E' (movedState c st) = mvU c (writeHistory E st) := by
  unfold writeHistory
  rw [h.opts]
  have e1 : (movedState c st).file = st.file := rfl
  have e2 : (movedState c st).startId = st.startId := rfl
  rw [e1, e2]
  cases E.opts.history
  · rfl
  · simp only [if_true]
    split <;> rfl

theorem mv_minimize (h : TranslatedProblem c E E') (htr : ∀ k I, E'.tr k (mvI c I) = (E.tr k I).map (mvS c)) (fuel : ℕ) (x0 : Vec Num n) (startId : String)
    (hess0 : Hess0 Num) (st : St Num n) : minimize E' fuel (moved c x0) startId hess0 (movedState c st) = mvU c (minimize E fuel x0 startId hess0 st) := by
  have e0 : ({ reset E' startId (movedState c st) with x := moved c x0, xId := (reset E' startId (movedState c st)).nextId, nextId := (reset E' startId (movedState c st)).nextId + 1 } : St Num n) =
      movedState c { reset E startId st with x := x0, xId := (reset E startId st).nextId, nextId := (reset E startId st).nextId + 1 } := by
    unfold reset
    rw [h.clock, h.opts]
    rfl
  unfold minimize
  simp only [e0]
  split
  · rfl
  · rw [mv_makeNonDegenerate h]
    have e1 : ∀ s : St Num n, (movedState c s).x = moved c s.x := fun _ => rfl
    rw [e1, mv_checkInBounds h]
    cases checkInBounds E (makeNonDegenerate E { reset E startId st with x := x0, xId := (reset E startId st).nextId, nextId := (reset E startId st).nextId + 1 }).x
      (makeNonDegenerate E { reset E startId st with x := x0, xId := (reset E startId st).nextId, nextId := (reset E startId st).nextId + 1 }) with
    | error e => rfl
    | ok s =>
      simp only [mvU, mv_setup h]
      cases setup E hess0 s with
      | error e => rfl
      | ok r =>
        simp only [mvR, mv_loop h htr]
        cases loop E fuel r.1 r.2 with
        | error e => rfl
        | ok s' => simp only [mvU, mv_writeHistory h]

end

end Fides
