import Verif.Model.Minimize

/-!
# Specification vocabulary: runs of `minimize`

A run consists of a start (degeneracy nudge, bounds check, first evaluation) and of passes through the loop
body.  `LoopHead … k st cur` says: in the run started by `minimize` from optimizer state `st0`, after `k` complete passes
the optimizer is in state `st` at the head of the `while` loop and `cur` is the evaluation at the current point.
-/

namespace Fides.Spec
open Fides
variable {F : Type} [FloatOps F] {n : ℕ}

/-- the optimizer when the bounds of the starting point are checked (minimize.py:355-360) -/
def startState (E : Env F n) (x0 : Vec F n) (startId : String) (st0 : St F n) : St F n :=
  makeNonDegenerate E { reset E startId st0 with x := x0, xId := (reset E startId st0).nextId,
                                                  nextId := (reset E startId st0).nextId + 1 }

/-- the states at the head of the loop, see above -/
inductive LoopHead (E : Env F n) (x0 : Vec F n) (startId : String) (hess0 : Hess0 F) (st0 : St F n) :
    ℕ → St F n → Funout F n → Prop
  | start (st1 st : St F n) (cur : Funout F n) :
      checkInBounds E (startState E x0 startId st0).x (startState E x0 startId st0) = .ok st1 →
      setup E hess0 st1 = .ok (st, cur) → LoopHead E x0 startId hess0 st0 0 st cur
  | next (k : ℕ) (st st1 st2 : St F n) (cur cur2 : Funout F n) :
      LoopHead E x0 startId hess0 st0 k st cur → checkContinue E st = (true, st1) →
      iterate E st1 cur = .ok (st2, cur2) → LoopHead E x0 startId hess0 st0 (k + 1) st2 cur2

/-- the optimizer object after a call, whether it returned or raised -/
def finalState : Except (PyErr × St F n) (St F n) → St F n
  | .ok st => st
  | .error e => e.2

/-- the proposals of a run come from `trust_region` with the options of the optimizer; the external routines
(`O k` for the `k`-th call) may be anything -/
def UsesTrustRegion (E : Env F n) : Prop :=
  ∃ (O : ℕ → Oracles F) (fuel : ℕ), ∀ k I, E.tr k I = trustRegion (O k) fuel E.opts.subspaceDim E.opts.stepbackStrat I

/-- `b` is the first evaluation with the least finite value in the log `l` (latest evaluation first) -/
def FirstBest (l : List (EvalRec F n)) (b : Funout F n) : Prop :=
  ∃ later earlier, l = later ++ { arg := b.x, out := .ok b } :: earlier ∧ isFinite b.fval = true ∧
    (∀ r ∈ later, ∀ fo, r.out = .ok fo → isFinite fo.fval = true → le b.fval fo.fval = true) ∧
    (∀ r ∈ earlier, ∀ fo, r.out = .ok fo → isFinite fo.fval = true → lt b.fval fo.fval = true)

/-- value, gradient and (when returned) Hessian of an evaluation are finite -/
def FiniteEval (fo : Funout F n) : Prop :=
  isFinite fo.fval = true ∧ (∀ i, isFinite (fo.grad i) = true) ∧ ∀ h, fo.hess = some h → ∀ i j, isFinite (h i j) = true

/-- a pass through the loop body that completed: from the loop head `prev` (evaluation `cur` at the current point) the
proposal `step` was computed and evaluated at the trial point `prev.x + step.s + step.s0` with result `new`, after which
the optimizer is at the loop head in state `next`, with current evaluation `cur'` (`new` if the step was accepted) -/
structure Pass (E : Env F n) (prev : St F n) (cur : Funout F n) (step : Step F n) (new : Funout F n) (next : St F n)
    (cur' : Funout F n) : Prop where
  continues : checkContinue E prev = (true, { prev with ticks := prev.ticks + 1 })
  body : iterate E { prev with ticks := prev.ticks + 1 } cur = .ok (next, cur')
  proposal : E.tr prev.proposals (trInput E { prev with iteration := prev.iteration + 1, deltaIter := prev.delta,
                                                         ticks := prev.ticks + 1 }) = .ok step
  evaluated : next.evals = { arg := vadd (vadd prev.x step.s) step.s0, out := .ok new } :: prev.evals
  point : new.x = vadd (vadd prev.x step.s) step.s0

/-- the length of the proposal in scaled variables, `‖ss + ss0‖` -/
def stepLength (step : Step F n) : F := norm (vadd step.ss step.ss0)

end Fides.Spec
