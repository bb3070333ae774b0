import Verif.Model.Minimize

/-!
# Model of `Optimizer.minimize` with array objects

`Verif.Model.Minimize` treats the arrays exchanged with the objective as values.  The code keeps references: `self.grad`
(minimize.py:365, 531), `self.grad_min` (minimize.py:458) and the `res`, `sres` of the local variable `funout` (minimize.py:58-65, 432) are
the very arrays the objective returned, and `self.x`, `self.x_min`, `funout.x` are the very array that was passed to it (minimize.py:363,
414-415, 456, 530).  An objective that returns the same array again, or writes to its argument, therefore changes them.  Here the same
program is modelled with that effect.  Everything else that stems from the objective is a copy: Hessians (minimize.py:371-373, 527,
hessian_approximation.py:48, 82, 94) and, for residual functions, gradient and Hessian, which are new products (minimize.py:59-61).

Simplifications: a call that raises writes nothing; an array is written only by the calls that return it (or, for the argument, that receive it);
an array returned by two calls has the same shape both times, and different roles (`grad`, `res`, `sres`) use different arrays; arrays
held from an earlier call of `minimize` are not followed (everything that is returned is assigned anew before the loop).
-/

namespace Fides
variable {F : Type} [FloatOps F] {n : Nat}

/-- the arrays of the objective: which array object is returned by the `k`-th call, and what the `k`-th call leaves in the array it was
given -/
structure Memory (F : Type) (n : Nat) where
  grad : Nat → Nat
  res : Nat → Nat
  sres : Nat → Nat
  arg : Nat → Vec F n → Vec F n

/-- the calls whose arrays the optimizer refers to: `current` for `self.grad` and `funout`, `best` for `self.grad_min` -/
structure Held where
  current : Nat
  best : Nat

/-- contents of `self.grad` and `self.grad_min` after the `k`-th call returned `new` (minimize.py:67-71; nothing changes for residual
functions, minimize.py:57-65) -/
def writeGrads (E : Env F n) (M : Memory F n) (k : Nat) (new : Funout F n) (h : Held) (st : St F n) : St F n :=
  if E.resfun then st
  else { st with
    grad := if M.grad k = M.grad h.current then new.grad else st.grad
    gradMin := if M.grad k = M.grad h.best then new.grad else st.gradMin }

/-- contents of `funout.res` and `funout.sres` after the `k`-th call returned `new` (minimize.py:57-65) -/
def writeRes (M : Memory F n) (k : Nat) (new : Funout F n) (h : Held) (old : Funout F n) : Funout F n :=
  match old.res, new.res with
  | some ro, some rn =>
    match rn.castTo ro.m with
    | none => old
    | some (r, s) =>
      { old with res := some { m := ro.m, res := if M.res k = M.res h.current then r else ro.res,
                               sres := if M.sres k = M.sres h.current then s else ro.sres } }
  | _, _ => old

/-- one pass through the `while` body (minimize.py:386-434), as `iterate` -/
def iterateMem (E : Env F n) (M : Memory F n) (st : St F n) (old : Funout F n) (h : Held) :
    Except (PyErr × St F n) (St F n × Funout F n × Held) :=
  let st := { st with iteration := st.iteration + 1, deltaIter := st.delta }            -- 386-387
  let inp := trInput E st                                                               -- 389-395
  match checkFinite st.fval st.grad (some st.hess) st with                              -- 397
  | .error e => .error e
  | .ok st =>
    match E.tr st.proposals inp with                                                    -- 399-412
    | .error e => .error (e, st)
    | .ok step =>
      let xNew := vadd (vadd st.x step.s) step.s0                                       -- 414
      let st := { st with proposals := st.proposals + 1, nextId := st.nextId + 1 }
      let k := st.evals.length
      match evaluate E xNew (st.nextId - 1) st with                                     -- 415
      | (.error e, st) => .error (e, st)
      | (.ok new, st) =>
        let st := writeGrads E M k new h st
        let old := writeRes M k new h old
        let new := { new with x := M.arg k xNew }
        let chk := if isFinite new.fval then checkFinite new.fval new.grad new.hess st else .ok st   -- 417-418
        match chk with
        | .error e => .error e
        | .ok st =>
          let r := updateTrRadius E new step inp.dv st                                  -- 420
          let accepted := r.1
          let st := checkConvergence E step new r.2                                     -- 425
          let best := if isFinite new.fval && lt new.fval st.fvalMin then k else h.best  -- 455
          let st := trackMinimum new st                                                 -- 428
          let upd := if accepted then update E step new old st else .ok st              -- 430-431
          match upd with
          | .error e => .error e
          | .ok st =>
            let old := if accepted then new else old                                    -- 432
            let h : Held := { current := if accepted then k else h.current, best := best }
            if E.opts.history then                                                      -- 434-435
              match historyRow E accepted step new inp.theta inp.prob.shess st with
              | .error e => .error (e, st)
              | .ok row => .ok ({ st with history := appendRow st.history row }, old, h)
            else .ok (st, old, h)

/-- the loop (minimize.py:385-435), as `loop` -/
def loopMem (E : Env F n) (M : Memory F n) : Nat → St F n → Funout F n → Held → Except (PyErr × St F n) (St F n)
  | fuel, st, old, h =>
    match checkContinue E st with
    | (false, st) => .ok st
    | (true, st) =>
      match fuel with
      | 0 => .error (.diverges, st)
      | fuel + 1 =>
        match iterateMem E M st old h with
        | .error e => .error e
        | .ok (st, old, h) => loopMem E M fuel st old h

/-- from the first evaluation to the start of the loop (minimize.py:363-383), as `setup`: the first call receives `self.x` itself, and
`self.x_min` becomes the same array.  Nothing between line 363 and line 383 reads the entries of `self.x`. -/
def setupMem (E : Env F n) (M : Memory F n) (hess0 : Hess0 F) (st : St F n) :
    Except (PyErr × St F n) (St F n × Funout F n × Held) :=
  let k := st.evals.length
  match setup E hess0 st with
  | .error e => .error e
  | .ok (st, fo) =>
    let x := M.arg k st.x
    .ok ({ st with x := x, xMin := if st.xMinId = st.xId then x else st.xMin }, { fo with x := x }, { current := k, best := k })

/-- `Optimizer.minimize` (minimize.py:313-443), as `minimize` -/
def minimizeMem (E : Env F n) (M : Memory F n) (fuel : Nat) (x0 : Vec F n) (startId : String) (hess0 : Hess0 F) (st : St F n) :
    Except (PyErr × St F n) (St F n) :=
  let st := reset E startId st                                                          -- 355
  let st := { st with x := x0, xId := st.nextId, nextId := st.nextId + 1 }              -- 357
  if n = 0 then .error (.valueError, st)
  else
    let st := makeNonDegenerate E st                                                    -- 360
    match checkInBounds E st.x st with                                                  -- 361
    | .error e => .error e
    | .ok st =>
      match setupMem E M hess0 st with                                                  -- 363-383
      | .error e => .error e
      | .ok (st, fo, h) =>
        match loopMem E M fuel st fo h with                                             -- 385-435
        | .error e => .error e
        | .ok st => writeHistory E st                                                   -- 437-443

end Fides
