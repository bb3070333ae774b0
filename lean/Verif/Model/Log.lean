import Verif.Model.Minimize

/-!
# Model of the progress log (minimize.py:421-425, 618-653, 670-696, 742-778, 831-864)

The functions below follow `setup`, `iterate`, `loop` and `minimize` of `Verif.Model.Minimize` and collect the lines which
`Optimizer` sends to its logger at level INFO or above.  Numbers stay numbers: of the formatting only the padding of the
columns `iter` and `step` is modelled.  Not modelled: messages at level DEBUG (subproblem.py:158-221,
trust_region.py:164-177), and that a handler may raise.
-/

namespace Fides
variable {F : Type} [FloatOps F] {n : Nat}

/-- class attribute `type` of the step classes (steps.py:256-520) -/
def StepType.text : StepType → String
  | .nd => "nd"
  | .twoD => "2d"
  | .cgs => "cgs"
  | .trr => "trr"
  | .trt => "trt"
  | .g => "g"
  | .ref => "ref"

/-- one row of the table; `none` where `log_step_initial` prints `NaN` -/
structure LogRow (F : Type) where
  iteration : Nat
  fval : F
  fdiff : Option F
  ratio : Option F
  radius : F
  gnorm : F
  stepnorm : Option F
  type : Option StepType
  acc : Bool

/-- the stop messages with the numbers they print -/
inductive StopMsg (F : Type) where
  /-- `Stopping as function difference … was smaller than specified tolerances (atol, rtol)` (622-626) -/
  | fdiff (d atol rtol : F)
  /-- `Stopping as norm of step … was smaller than specified tolerance` (631-635) -/
  | step (d tol : F)
  /-- `Stopping as gradient norm satisfies absolute convergence criteria` (640-643) -/
  | gradAbs (g tol : F)
  /-- `Stopping as gradient norm satisfies relative convergence criteria` (648-652) -/
  | gradRel (g tol absf : F)
  /-- `Stopping as maximum number of iterations … was exceeded.` (672-675) -/
  | maxiter (m : Int)
  /-- `Stopping as maximum runtime … is expected to be exceeded in the next iteration.` (684-687) -/
  | maxtime (t : F)
  /-- `Stopping as trust region radius … is smaller than machine precision.` (692-695) -/
  | delta (d : F)

/-- a line of the log -/
inductive LogLine (F : Type) where
  | header
  | row (r : LogRow F)
  | stop (m : StopMsg F)

/-- logging levels in use -/
inductive Level where
  | info | warning
  deriving DecidableEq, Repr

/-- which logger method emits a line (`info` except at minimize.py:672, 684, 692) -/
def LogLine.level : LogLine F → Level
  | .stop (.maxiter _) => .warning
  | .stop (.maxtime _) => .warning
  | .stop (.delta _) => .warning
  | _ => .info

/-- `" " * k` for an integer `k` -/
def spaces (k : Int) : String := String.ofList (List.replicate k.toNat ' ')

/-- text before the first `|` of a row (minimize.py:758-762, 769, 835-842) -/
def iterField (maxiter : Int) (iteration : Nat) : String :=
  spaces (max ((toString maxiter).length : Int) 5 - (toString iteration).length - 1) ++ toString iteration

/-- text before the first `|` of the header (minimize.py:859-861) -/
def headField (maxiter : Int) : String := spaces (max (((toString maxiter).length : Int) - 5) 0) ++ "iter"

/-- the column `step` of a row without the closing blank (minimize.py:763, 776) -/
def typeField (t : StepType) : String := spaces (4 - (t.text.length : Int)) ++ t.text

/-- `log_step` (minimize.py:742-778) -/
def logRow (accepted : Bool) (step : Step F n) (fo : Funout F n) (st : St F n) : LogRow F :=
  let fval := if isFinite fo.fval then fo.fval else st.fval                             -- 765-767
  { iteration := st.iteration                                                           -- 769
    fval := if accepted then fval else st.fval                                          -- 770
    fdiff := some (fval - st.fval)                                                      -- 771
    ratio := some st.trRatio                                                            -- 772
    radius := st.deltaIter                                                              -- 773
    gnorm := norm st.grad                                                               -- 756, 774
    stepnorm := some (norm (vadd step.s step.s0))                                       -- 755, 775
    type := some step.type                                                              -- 776
    acc := accepted }                                                                   -- 777

/-- `log_step_initial` (minimize.py:831-852) -/
def logRowInitial (st : St F n) : LogRow F :=
  { iteration := st.iteration, fval := st.fval, fdiff := none, ratio := none, radius := st.delta, gnorm := norm st.grad,
    stepnorm := none, type := none, acc := isFinite st.fval }

/-- the message of `check_convergence` (minimize.py:618-653) -/
def convLog (E : Env F n) (step : Step F n) (fo : Funout F n) (st : St F n) : List (LogLine F) :=
  let gnorm := norm fo.grad
  let nsx := norm (vadd step.ss step.ss0)
  if lt E.opts.mu st.trRatio &&
      lt (FloatOps.abs (fo.fval - st.fval)) (E.opts.fatol + E.opts.frtol * FloatOps.abs st.fval) then
    [.stop (.fdiff (FloatOps.abs (st.fval - fo.fval)) E.opts.fatol E.opts.frtol)]       -- 622-626
  else if decide (1 < st.iteration) && lt nsx E.opts.xtol then
    [.stop (.step nsx E.opts.xtol)]                                                     -- 631-635
  else if le gnorm E.opts.gatol then
    [.stop (.gradAbs gnorm E.opts.gatol)]                                               -- 640-643
  else if le gnorm (E.opts.grtol * FloatOps.abs st.fval) then
    [.stop (.gradRel gnorm E.opts.grtol (FloatOps.abs st.fval))]                        -- 648-652
  else []

/-- the message of `check_continue` (minimize.py:666-698) -/
def contLog (E : Env F n) (st : St F n) : List (LogLine F) :=
  if st.converged then []
  else if E.opts.maxiter ≤ (st.iteration : Int) then [.stop (.maxiter E.opts.maxiter)]  -- 672-675
  else
    let elapsed := E.clock st.ticks - st.starttime
    let remaining := E.opts.maxtime - elapsed
    let avg := elapsed / lit ((if st.iteration = 0 then 1 else st.iteration : Nat) : ℚ)
    if lt remaining avg then [.stop (.maxtime E.opts.maxtime)]                          -- 684-687
    else if lt st.delta spacing1 then [.stop (.delta st.delta)]                         -- 692-695
    else []

/-- the lines of one pass through the `while` body (minimize.py:386-435) -/
def iterLog (E : Env F n) (st : St F n) : List (LogLine F) :=
  let st := { st with iteration := st.iteration + 1, deltaIter := st.delta }            -- 386-387
  let inp := trInput E st
  match checkFinite st.fval st.grad (some st.hess) st with                              -- 397
  | .error _ => []
  | .ok st =>
    match E.tr st.proposals inp with                                                    -- 399-412
    | .error _ => []
    | .ok step =>
      let xNew := vadd (vadd st.x step.s) step.s0                                       -- 414
      let st := { st with proposals := st.proposals + 1, nextId := st.nextId + 1 }
      match evaluate E xNew (st.nextId - 1) st with                                     -- 415
      | (.error _, _) => []
      | (.ok new, st) =>
        let chk := if isFinite new.fval then checkFinite new.fval new.grad new.hess st else .ok st   -- 417-418
        match chk with
        | .error _ => []
        | .ok st =>
          let r := updateTrRadius E new step inp.dv st                                  -- 420
          (if r.2.iteration % 10 = 0 then [.header] else []) ++                         -- 422-423
            [.row (logRow r.1 step new r.2)] ++                                         -- 424
            convLog E step new r.2                                                      -- 425

/-- the lines of the loop (minimize.py:385-435) -/
def loopLog (E : Env F n) : Nat → St F n → Funout F n → List (LogLine F)
  | fuel, st, old =>
    contLog E st ++
    match checkContinue E st with
    | (false, _) => []
    | (true, st) =>
      match fuel with
      | 0 => []
      | fuel + 1 =>
        iterLog E st ++
        match iterate E st old with
        | .error _ => []
        | .ok (st, old) => loopLog E fuel st old

/-- the lines between the first evaluation and the loop (minimize.py:363-383): header and initial row are printed after
`track_minimum`, before `check_finite` -/
def setupLog (E : Env F n) (hess0 : Hess0 F) (st : St F n) : List (LogLine F) :=
  match funEval E.nargout E.resfun (E.obj st.evals.length st.x) with                    -- 363
  | .error _ => []
  | .ok raw =>
    match initialHapp st.happ hess0 raw with                                            -- 366-373
    | .error _ => []
    | .ok _ =>
      match checkdims n raw with                                                        -- 375
      | .error _ => []
      | .ok () =>
        match raw.typed st.x st.xId with
        | none => []
        | some fo =>
          let st : St F n := { st with fval := fo.fval, grad := fo.grad }               -- 365
          [.header, .row (logRowInitial st)]                                            -- 378-379

/-- the lines of a call of `minimize` (minimize.py:355-443) -/
def minimizeLog (E : Env F n) (fuel : Nat) (x0 : Vec F n) (startId : String) (hess0 : Hess0 F) (st : St F n) :
    List (LogLine F) :=
  let st := reset E startId st
  let st := { st with x := x0, xId := st.nextId, nextId := st.nextId + 1 }
  if n = 0 then []
  else
    let st := makeNonDegenerate E st
    match checkInBounds E st.x st with
    | .error _ => []
    | .ok st =>
      setupLog E hess0 st ++
      match setup E hess0 st with
      | .error _ => []
      | .ok (st, fo) => loopLog E fuel st fo

end Fides
