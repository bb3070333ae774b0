import Verif.Spec.Run
import Verif.Model.Log

/-!
# Specification vocabulary: the progress log
-/

namespace Fides.Spec
open Fides
variable {F : Type} [FloatOps F] {n : ℕ}

/-- a table: one line per row, with a header before every row whose number is a multiple of ten -/
def table (rows : List (LogRow F)) : List (LogLine F) :=
  rows.flatMap fun r => if r.iteration % 10 = 0 then [.header, .row r] else [.row r]

/-- the row shows the start of a run: the loop head `st` before the first pass -/
structure ShowsStart (st : St F n) (r : LogRow F) : Prop where
  iteration : r.iteration = 0
  fval : r.fval = st.fval
  radius : r.radius = st.delta
  gnorm : r.gnorm = norm st.grad
  acc : r.acc = isFinite st.fval
  blank : r.fdiff = none ∧ r.ratio = none ∧ r.stepnorm = none ∧ r.type = none

/-- the row shows a pass from `prev` with proposal `step`, evaluation `new` of the trial point, to `next`: value *after* the
pass, change of the value at the trial point (zero, that is value minus itself, for a non-finite one), ratio of the pass, the
radius and the gradient norm *before* the pass, length of the proposal, and whether the step was accepted, that is: whether
the state after the pass holds the trial evaluation -/
structure ShowsPass (prev : St F n) (step : Step F n) (new : Funout F n) (next : St F n) (r : LogRow F) : Prop where
  iteration : r.iteration = prev.iteration + 1
  fval : r.fval = next.fval
  fdiff : r.fdiff = some ((if isFinite new.fval then new.fval else prev.fval) - prev.fval)
  ratio : r.ratio = some next.trRatio
  radius : r.radius = prev.delta
  gnorm : r.gnorm = norm prev.grad
  stepnorm : r.stepnorm = some (norm (vadd step.s step.s0))
  type : r.type = some step.type
  accepted : r.acc = true → next.fval = new.fval ∧ next.grad = new.grad ∧ lt next.fval prev.fval = true
  rejected : r.acc = false → next.fval = prev.fval ∧ next.grad = prev.grad ∧ next.x = prev.x

/-- the exit flag that goes with a stop message -/
def flagOf : StopMsg F → ExitFlag
  | .fdiff _ _ _ => .ftol
  | .step _ _ => .xtol
  | .gradAbs _ _ => .gtol
  | .gradRel _ _ _ => .gtol
  | .maxiter _ => .maxiter
  | .maxtime _ => .maxtime
  | .delta _ => .deltaTooSmall

/-- the last pass of the run that ended in state `last` was made from `prev`, with proposal `step` and evaluation `new` -/
def LastPass (E : Env F n) (x0 : Vec F n) (startId : String) (hess0 : Hess0 F) (st0 last prev : St F n) (step : Step F n)
    (new : Funout F n) : Prop :=
  ∃ k cur next cur' f, LoopHead E x0 startId hess0 st0 k prev cur ∧ Pass E prev cur step new next cur' ∧
    last = { next with file := f }

/-- the stop message is true of the run that ended in state `last`: the criterion it names holds for the numbers it prints,
and these are the options and the quantities of the last pass (for the convergence tests) or of the final state -/
def Truthful (E : Env F n) (x0 : Vec F n) (startId : String) (hess0 : Hess0 F) (st0 last : St F n) : StopMsg F → Prop
  | .fdiff d atol rtol => atol = E.opts.fatol ∧ rtol = E.opts.frtol ∧
      ∃ prev step new, LastPass E x0 startId hess0 st0 last prev step new ∧ d = FloatOps.abs (prev.fval - new.fval) ∧
        lt (FloatOps.abs (new.fval - prev.fval)) (atol + rtol * FloatOps.abs prev.fval) = true
  | .step d tol => tol = E.opts.xtol ∧ lt d tol = true ∧
      ∃ prev step new, LastPass E x0 startId hess0 st0 last prev step new ∧ d = stepLength step
  | .gradAbs g tol => tol = E.opts.gatol ∧ le g tol = true ∧
      ∃ prev step new, LastPass E x0 startId hess0 st0 last prev step new ∧ g = norm new.grad
  | .gradRel g tol a => tol = E.opts.grtol ∧ le g (tol * a) = true ∧
      ∃ prev step new, LastPass E x0 startId hess0 st0 last prev step new ∧ g = norm new.grad ∧
        a = FloatOps.abs prev.fval
  | .maxiter m => m = E.opts.maxiter ∧ m ≤ (last.iteration : Int)
  | .maxtime t => t = E.opts.maxtime ∧ ∃ tick,
      lt (t - (E.clock tick - last.starttime))
        ((E.clock tick - last.starttime) / lit ((if last.iteration = 0 then 1 else last.iteration : Nat) : ℚ)) = true
  | .delta d => d = last.delta ∧ lt d spacing1 = true

end Fides.Spec

namespace Fides.Spec
open Fides
variable {F : Type}

/-- the rows among the lines of a log -/
def rowsOf (l : List (LogLine F)) : List (LogRow F) := l.filterMap fun
  | .row r => some r
  | _ => none

end Fides.Spec
