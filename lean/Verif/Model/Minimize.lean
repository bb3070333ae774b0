import Verif.Model.Funeval

/-!
# Model of `Optimizer` (minimize.py:160-953)

Methods that mutate `self` become functions on the state `St`; an exception carries the state in which it
was raised.  Array identity matters in one place: `self.x`, `self.x_min` and `funout.x` may be the same object and
`make_non_degenerate` changes `self.x` in place; the fields `xId`, `xMinId` name the objects.

Log output is in `Verif.Model.Log` (it does not influence the state).  Objectives that
mutate their argument or return the same array object twice are in `Verif.Model.Memory`.  Integer-typed `x0` is in `Verif.Model.IntStart`.  Not modelled: evaluations after the first one whose shapes differ from those of the first one
(the model raises ValueError there), `x0` of another length than the bounds.
-/

namespace Fides
variable {F : Type} [FloatOps F] {n : Nat}

/-- option values as returned by `get_option` (minimize.py:946-947).  `maxiter` is an integer because
`validate_options` requires `int(maxiter) == maxiter`. -/
structure Opts (F : Type) where
  maxiter : Int
  maxtime : F
  fatol : F
  frtol : F
  xtol : F
  gatol : F
  grtol : F
  subspaceDim : SubSpaceDim
  stepbackStrat : StepBackStrategy
  thetaMax : F
  deltaInit : F
  mu : F
  eta : F
  gamma1 : F
  gamma2 : F
  /-- truth value of the `history_file` option -/
  history : Bool

/-- a number given as option value -/
def RawVal.toF : RawVal → F
  | .int z => lit z
  | .real q => lit q
  | .infinite false => FloatOps.inf
  | .infinite true => -FloatOps.inf
  | _ => FloatOps.nan

/-- `maxiter` as an integer -/
def RawVal.toInt : RawVal → Int
  | .int z => z
  | .real q => q.num / (q.den : Int)
  | _ => 0

/-- `get_option` for every key (minimize.py:946-947, constants.py:65-82) -/
def resolveOpts (o : List (RawKey × RawVal)) : Opts F where
  maxiter := (getOption o .maxiter).toInt
  maxtime := (getOption o .maxtime).toF
  fatol := (getOption o .fatol).toF
  frtol := (getOption o .frtol).toF
  xtol := (getOption o .xtol).toF
  gatol := (getOption o .gatol).toF
  grtol := (getOption o .grtol).toF
  subspaceDim := (getOption o .subspaceDim).toSubspace
  stepbackStrat := (getOption o .stepbackStrat).toStepback
  thetaMax := (getOption o .thetaMax).toF
  deltaInit := (getOption o .deltaInit).toF
  mu := (getOption o .mu).toF
  eta := (getOption o .eta).toF
  gamma1 := (getOption o .gamma1).toF
  gamma2 := (getOption o .gamma2).toF
  history := (getOption o .historyFile).truthy

/-- an entry of a history list -/
inductive HVal (F : Type) where
  | num (v : F)
  | int (k : Nat)
  | bool (b : Bool)
  | type (t : StepType)

/-- `self.history`: a dict from quantity names to lists (minimize.py:295, 311) -/
abbrev History (F : Type) := List (String × List (HVal F))

/-- `self.history[key].append(val)` on a `defaultdict(list)` -/
def History.append (h : History F) (key : String) (v : HVal F) : History F :=
  match h with
  | [] => [(key, [v])]
  | (k, l) :: rest => if k = key then (k, l ++ [v]) :: rest else (k, l) :: History.append rest key v

/-- one record of the ghost log of objective calls: the argument and what `FunEvaluator` made of the result -/
structure EvalRec (F : Type) (n : Nat) where
  arg : Vec F n
  out : Except PyErr (Funout F n)

/-- state of an `Optimizer` object (minimize.py:272-296), of the history file, and ghost counters -/
structure St (F : Type) (n : Nat) where
  delta : F
  deltaIter : F
  trRatio : F
  x : Vec F n
  xId : Nat
  fval : F
  grad : Vec F n
  hess : Mat F n n
  xMin : Vec F n
  xMinId : Nat
  fvalMin : F
  gradMin : Vec F n
  happ : Option (Happ F n)
  iterSinceTr : Nat
  nIntermediate : Nat
  starttime : F
  iteration : Nat
  converged : Bool
  exitflag : ExitFlag
  history : History F
  startId : String
  /-- contents of the history file: groups in order of creation -/
  file : List (String × History F)
  /-- ghost: calls of the objective, latest first -/
  evals : List (EvalRec F n)
  /-- ghost: number of `time.time()` calls -/
  ticks : Nat
  /-- ghost: number of `trust_region` calls -/
  proposals : Nat
  /-- next array identity -/
  nextId : Nat

/-- everything outside the optimizer object -/
structure Env (F : Type) (n : Nat) where
  lb : Vec F n
  ub : Vec F n
  opts : Opts F
  nargout : Nat
  resfun : Bool
  /-- the `k`-th call of the objective -/
  obj : Nat → Vec F n → Ret F
  /-- the `k`-th value of `time.time()` -/
  clock : Nat → F
  /-- the `k`-th call of `trust_region` -/
  tr : Nat → TRIn F n → Except PyErr (Step F n)
  /-- `_min_max_evs` (minimize.py:950-952) -/
  evs : Mat F n n → Except PyErr (F × F)
  /-- `np.linalg.cond` -/
  cond : Mat F n n → Except PyErr F

/-- state after `Optimizer.__init__` (minimize.py:272-296); `np.empty` contents are arbitrary, taken as zeros -/
def St.new (o : Opts F) (happ : Option (Happ F n)) : St F n :=
  { delta := o.deltaInit, deltaIter := o.deltaInit, trRatio := lit 1, x := vzero, xId := 0, fval := FloatOps.inf,
    grad := vzero, hess := mzero, xMin := vzero, xMinId := 0, fvalMin := FloatOps.inf, gradMin := vzero,
    happ := happ, iterSinceTr := 0, nIntermediate := 0, starttime := FloatOps.nan, iteration := 0, converged := false,
    exitflag := .didNotRun, history := [], startId := "", file := [], evals := [], ticks := 0, proposals := 0,
    nextId := 1 }

/-- `Optimizer._reset` (minimize.py:298-311); `startId` is the effective id (given or generated by `uuid1`) -/
def reset (E : Env F n) (startId : String) (st : St F n) : St F n :=
  { st with
    starttime := E.clock st.ticks, ticks := st.ticks + 1                                -- 299
    iteration := 0, iterSinceTr := 0, nIntermediate := 0, converged := false            -- 300-303
    delta := E.opts.deltaInit, deltaIter := E.opts.deltaInit                            -- 304-305
    fvalMin := FloatOps.inf                                                             -- 306
    startId := startId, history := [] }                                                 -- 310-311

/-- degeneracy threshold `1e2 * np.spacing(1)` (minimize.py:708) -/
def degEps : F := lit 100 * spacing1

/-- the new value of `self.x` in `make_non_degenerate` (minimize.py:700-716) -/
def nudge (lb ub x : Vec F n) : Vec F n :=
  if lt (vmin fun i => FloatOps.abs (ub i - x i)) degEps || lt (vmin fun i => FloatOps.abs (x i - lb i)) degEps then
    fun i =>
      let upper := lt (ub i - x i) degEps                                               -- 713
      let lower := lt (x i - lb i) degEps                                               -- 714
      let xi := if upper then x i - degEps else x i                                     -- 715
      if lower then xi + degEps else xi                                                 -- 716
  else x

/-- `make_non_degenerate` (minimize.py:700-716): in place, so `self.x_min` changes too if it is the same object -/
def makeNonDegenerate (E : Env F n) (st : St F n) : St F n :=
  let x := nudge E.lb E.ub st.x
  { st with x := x, xMin := if st.xMinId = st.xId then x else st.xMin }

/-- the test of `check_in_bounds` (minimize.py:930-944) -/
def inBounds (lb ub x : Vec F n) : Bool :=
  decide (∀ i, le (lit (-1) * (ub i - x i)) (lit 0) = true) && decide (∀ i, le (lit 1 * (lb i - x i)) (lit 0) = true)

/-- `check_in_bounds` (minimize.py:915-944) -/
def checkInBounds (E : Env F n) (x : Vec F n) (st : St F n) : Except (PyErr × St F n) (St F n) :=
  if inBounds E.lb E.ub x then .ok st else .error (.runtimeError, { st with exitflag := .exceededBoundary })

/-- the test of `check_finite` (minimize.py:887-913) -/
def allFinite (fval : F) (grad : Vec F n) (hess : Option (Mat F n n)) : Bool :=
  isFinite fval && vfinite grad && (match hess with | none => true | some h => mfinite h)

/-- `check_finite` (minimize.py:866-913) -/
def checkFinite (fval : F) (grad : Vec F n) (hess : Option (Mat F n n)) (st : St F n) :
    Except (PyErr × St F n) (St F n) :=
  if allFinite fval grad hess then .ok st else .error (.runtimeError, { st with exitflag := .notFinite })

/-- `track_minimum` (minimize.py:445-458) -/
def trackMinimum (fo : Funout F n) (st : St F n) : St F n :=
  if isFinite fo.fval && lt fo.fval st.fvalMin then
    { st with xMin := fo.x, xMinId := fo.xId, fvalMin := fo.fval, gradMin := fo.grad }
  else st

/-- `get_affine_scaling` (minimize.py:718-740): `v` -/
def affineV (lb ub x grad : Vec F n) : Vec F n := fun i =>
  let bound := if lt (grad i) (lit 0) then ub i else lb i                               -- 734-735
  if isFinite bound then x i - bound                                                    -- 736-737
  else fsign (grad i) + (if feq (grad i) (lit 0) then lit 1 else lit 0)                 -- 728

/-- `get_affine_scaling` (minimize.py:718-740): `dv` -/
def affineDv (lb ub grad : Vec F n) : Vec F n := fun i =>
  let bound := if lt (grad i) (lit 0) then ub i else lb i
  if isFinite bound then lit 1 else lit 0                                               -- 729, 738

/-- `theta` (minimize.py:392-395) -/
def thetaOf (thetaMax : F) (v grad : Vec F n) : F :=
  pyMax thetaMax (lit 1 - normInf (fun i => v i * grad i))

/-- arguments of the `trust_region` call (minimize.py:389-412) -/
def trInput (E : Env F n) (st : St F n) : TRIn F n :=
  let v := affineV E.lb E.ub st.x st.grad
  { x := st.x, g := st.grad, hess := st.hess, scaling := fun i => FloatOps.sqrt (FloatOps.abs (v i)),
    delta := st.deltaIter, dv := affineDv E.lb E.ub st.grad, theta := thetaOf E.opts.thetaMax v st.grad,
    lb := E.lb, ub := E.ub }

/-- `update_tr_radius` (minimize.py:534-594) -/
def updateTrRadius (E : Env F n) (fo : Funout F n) (step : Step F n) (dv : Vec F n) (st : St F n) : Bool × St F n :=
  let stepsx := vadd step.ss step.ss0                                                   -- 554
  let nsx := norm stepsx                                                                -- 555
  let shrunk := nanMin2 (st.delta * E.opts.gamma1) (nsx / lit 4)
  if !isFinite fo.fval then                                                             -- 557-563
    (false, { st with trRatio := lit 0, delta := shrunk, iterSinceTr := 0 })
  else
    let aug := lit (1 / 2) * dot stepsx (fun i => dv i * FloatOps.abs (fo.grad i) * stepsx i)   -- 565
    let actual := st.fval - fo.fval - aug                                               -- 566
    let predicted := -step.qpval                                                        -- 567
    let ratio := if le predicted (lit 0) then lit 0 else actual / predicted             -- 568-571
    let interior := lt nsx (st.deltaIter * lit (9 / 10))                                -- 573
    let st := { st with trRatio := ratio, iterSinceTr := st.iterSinceTr + 1 }           -- 556
    let st :=
      if le E.opts.eta ratio && !interior then                                          -- 575-581
        { st with delta := E.opts.gamma2 * st.delta, iterSinceTr := 0 }
      else if le ratio E.opts.mu then                                                   -- 582-587
        { st with delta := shrunk, iterSinceTr := 0 }
      else if lt E.opts.mu ratio && lt ratio E.opts.eta then                            -- 588-593
        { st with nIntermediate := st.nIntermediate + 1 }
      else st
    (lt (lit 0) ratio, st)                                                              -- 594

/-- `check_convergence` (minimize.py:596-655) -/
def checkConvergence (E : Env F n) (step : Step F n) (fo : Funout F n) (st : St F n) : St F n :=
  let gnorm := norm fo.grad                                                             -- 614
  let nsx := norm (vadd step.ss step.ss0)                                               -- 615-616
  if lt E.opts.mu st.trRatio &&
      lt (FloatOps.abs (fo.fval - st.fval)) (E.opts.fatol + E.opts.frtol * FloatOps.abs st.fval) then   -- 618-620
    { st with exitflag := .ftol, converged := true }
  else if decide (1 < st.iteration) && lt nsx E.opts.xtol then                          -- 629
    { st with exitflag := .xtol, converged := true }
  else if le gnorm E.opts.gatol then                                                    -- 638
    { st with exitflag := .gtol, converged := true }
  else if le gnorm (E.opts.grtol * FloatOps.abs st.fval) then                           -- 646
    { st with exitflag := .gtol, converged := true }
  else { st with converged := false }                                                   -- 655

/-- `check_continue` (minimize.py:657-698) -/
def checkContinue (E : Env F n) (st : St F n) : Bool × St F n :=
  if st.converged then (false, st)                                                      -- 666-667
  else if E.opts.maxiter ≤ (st.iteration : Int) then (false, { st with exitflag := .maxiter })   -- 670-676
  else
    let elapsed := E.clock st.ticks - st.starttime                                      -- 678
    let st := { st with ticks := st.ticks + 1 }
    let remaining := E.opts.maxtime - elapsed                                           -- 680
    let avg := elapsed / lit ((if st.iteration = 0 then 1 else st.iteration : Nat) : ℚ)  -- 681
    if lt remaining avg then (false, { st with exitflag := .maxtime })                  -- 682-688
    else if lt st.delta spacing1 then (false, { st with exitflag := .deltaTooSmall })   -- 690-696
    else (true, st)

/-- result of `Happ` update dispatch in `Optimizer.update` (minimize.py:474-523) -/
def updateHapp (st : St F n) (h : Happ F n) (step : Step F n) (new old : Funout F n) : Except PyErr (Happ F n) :=
  let s := vadd step.s step.s0                                                          -- 475
  let y := vsub new.grad st.grad                                                        -- 476
  match h with
  | .iter h => .ok (.iter (h.update s y))                                               -- 478-479
  | .hybridFixed k sw h =>                                                              -- 480-486
    match new.hess with
    | none => .error .typeError
    | some hm => .ok (Happ.updateFixed k sw h s y hm st.iterSinceTr)
  | .hybridFraction t sw h =>                                                           -- 487-494
    match new.hess with
    | none => .error .typeError
    | some hm => .ok (Happ.updateFraction t sw h s y hm st.nIntermediate st.iteration)
  | .fx tol h =>                                                                        -- 495-510
    match new.hess, new.res, old.res with
    | some hm, some rn, some ro =>
      match ro.castTo rn.m with
      | none => .error .valueError
      | some (rprev, sprev) =>
        let gamma := vadd (mulVec hm s) (vecMul rn.res (msub rn.sres sprev))            -- 501-503
        .ok (.fx tol (h.updateFX tol s gamma rn.res rprev hm))
    | _, _, _ => .error .attributeError
  | .ssm h =>                                                                           -- 511-521
    match new.hess, new.res, old.res with
    | some hm, some rn, some ro =>
      match ro.castTo rn.m with
      | none => .error .valueError
      | some (_, sprev) => .ok (.ssm (h.updateSSM s y hm (vecMul rn.res (msub rn.sres sprev))))   -- 513
    | _, _, _ => .error .attributeError
  | .tssm h =>
    match new.hess, new.res, old.res with
    | some hm, some rn, some ro =>
      match ro.castTo rn.m with
      | none => .error .valueError
      | some (rprev, sprev) =>
        let q := norm rn.res / norm rprev                                               -- 517
        let yb : Vec F n := fun i => vecMul rn.res (msub rn.sres sprev) i * q
        .ok (.tssm (h.updateTSSM s y (norm rn.res) hm yb))
    | _, _, _ => .error .attributeError
  | .gnsbfgs tol h =>
    match new.hess, new.res, old.res with
    | some hm, some rn, some ro =>
      match ro.castTo rn.m with
      | none => .error .valueError
      | some (rprev, sprev) =>
        let q := norm rn.res / norm rprev                                               -- 517
        let yb : Vec F n := fun i => vecMul rn.res (msub rn.sres sprev) i * q
        .ok (.gnsbfgs tol (h.updateGNSBFGS tol s y (norm rn.res) hm yb))
    | _, _, _ => .error .attributeError
  | .base _ _ => .error .notImplementedError                                            -- 522-523

/-- `Optimizer.update` (minimize.py:460-532) -/
def update (E : Env F n) (step : Step F n) (new old : Funout F n) (st : St F n) :
    Except (PyErr × St F n) (St F n) :=
  let st1 : Except (PyErr × St F n) (St F n) :=
    match st.happ with
    | some h =>
      match updateHapp st h step new old with
      | .error e => .error (e, st)
      | .ok h' => .ok { st with happ := some h', hess := h'.getMat }                    -- 525
    | none =>
      match new.hess with
      | none => .error (.attributeError, st)
      | some hm => .ok { st with hess := hm }                                           -- 527
  match st1 with
  | .error e => .error e
  | .ok st1 =>
    match checkInBounds E new.x st1 with                                                -- 528
    | .error e => .error e
    | .ok st2 =>
      .ok (makeNonDegenerate E { st2 with fval := new.fval, x := new.x, xId := new.xId, grad := new.grad })  -- 529-532

/-- the quantities recorded by `track_history` (minimize.py:803-827), in dict order -/
def historyRow (E : Env F n) (accepted : Bool) (step : Step F n) (fo : Funout F n) (theta : F) (shess : Mat F n n)
    (st : St F n) : Except PyErr (List (String × HVal F)) :=
  match E.evs st.hess with                                                              -- 784
  | .error e => .error e
  | .ok (mn, mx) =>
    let upd : Except PyErr (F × F) :=                                                   -- 785-793
      match st.happ with
      | none => .ok (FloatOps.nan, FloatOps.nan)
      | some h => if accepted then E.evs h.getDiff else .ok (lit 0, lit 0)
    match upd with
    | .error e => .error e
    | .ok (umn, umx) =>
      let supd : Except PyErr (F × F) :=                                                -- 786, 795-801
        match st.happ with
        | some (.ssm h) => if accepted then E.evs h.sdiff else .ok (lit 0, lit 0)
        | some (.tssm h) => if accepted then E.evs h.sdiff else .ok (lit 0, lit 0)
        | some (.gnsbfgs _ h) => if accepted then E.evs h.sdiff else .ok (lit 0, lit 0)
        | _ => .ok (FloatOps.nan, FloatOps.nan)
      match supd with
      | .error e => .error e
      | .ok (smn, smx) =>
        match E.cond st.hess with                                                       -- 825
        | .error e => .error e
        | .ok ch =>
          match E.cond shess with                                                       -- 826
          | .error e => .error e
          | .ok csh =>
            .ok [("fval", .num fo.fval), ("tr_ratio", .num st.trRatio), ("tr_radius", .num st.deltaIter),
              ("normgrad", .num (norm st.grad)), ("normstep", .num (norm (vadd step.s step.s0))),
              ("theta", .num theta), ("alpha", .num step.alpha),
              ("reflections", .int ((List.finRange n).filter step.reflIdx).length),
              ("truncations", .int ((List.finRange n).filter step.truncIdx).length),
              ("accept", .bool accepted), ("hess_min_ev", .num mn), ("hess_max_ev", .num mx),
              ("hess_update_min_ev", .num umn), ("hess_update_max_ev", .num umx),
              ("hess_struct_update_min_ev", .num smn), ("hess_struct_update_max_ev", .num smx),
              ("iterations_since_tr_update", .int st.iterSinceTr), ("step_type", .type step.type),
              ("subspace_dim", .int step.subspace.length), ("posdef", .bool (step.posdef.getD false)),
              ("newton", .bool (step.newton.getD false)), ("cond_hess", .num ch), ("cond_shess", .num csh)]

/-- the loop at minimize.py:828-829 -/
def appendRow (h : History F) (row : List (String × HVal F)) : History F :=
  row.foldl (fun h kv => h.append kv.1 kv.2) h

/-- call `FunEvaluator` at `x` (a fresh array object) and log the call (minimize.py:363, 415) -/
def evaluate (E : Env F n) (x : Vec F n) (xId : Nat) (st : St F n) : Except PyErr (Funout F n) × St F n :=
  let out : Except PyErr (Funout F n) :=
    match funEval E.nargout E.resfun (E.obj st.evals.length x) with
    | .error e => .error e
    | .ok raw =>
      match raw.typed x xId with
      | some fo => .ok fo
      | none => .error .valueError
  (out, { st with evals := { arg := x, out := out } :: st.evals })

/-- one pass through the `while` body (minimize.py:386-434); `old` is the local variable `funout` -/
def iterate (E : Env F n) (st : St F n) (old : Funout F n) : Except (PyErr × St F n) (St F n × Funout F n) :=
  let st := { st with iteration := st.iteration + 1, deltaIter := st.delta }            -- 386-387
  let inp := trInput E st                                                               -- 389-395
  match checkFinite st.fval st.grad (some st.hess) st with                              -- 397
  | .error e => .error e
  | .ok st =>
    match E.tr st.proposals inp with                                                    -- 399-412
    | .error e => .error (e, st)
    | .ok step =>
      let xNew := vadd (vadd st.x step.s) step.s0                                       -- 414
      let st := { st with proposals := st.proposals + 1, nextId := st.nextId + 1 }
      match evaluate E xNew (st.nextId - 1) st with                                     -- 415
      | (.error e, st) => .error (e, st)
      | (.ok new, st) =>
        let chk := if isFinite new.fval then checkFinite new.fval new.grad new.hess st else .ok st   -- 417-418
        match chk with
        | .error e => .error e
        | .ok st =>
          let r := updateTrRadius E new step inp.dv st                                  -- 420
          let accepted := r.1
          let st := checkConvergence E step new r.2                                     -- 425
          let st := trackMinimum new st                                                 -- 428
          let upd := if accepted then update E step new old st else .ok st              -- 430-431
          match upd with
          | .error e => .error e
          | .ok st =>
            let old := if accepted then new else old                                    -- 432
            if E.opts.history then                                                      -- 434-435
              match historyRow E accepted step new inp.theta inp.prob.shess st with
              | .error e => .error (e, st)
              | .ok row => .ok ({ st with history := appendRow st.history row }, old)
            else .ok (st, old)

/-- the `while self.check_continue()` loop (minimize.py:385-435); `diverges` when the fuel runs out -/
def loop (E : Env F n) : Nat → St F n → Funout F n → Except (PyErr × St F n) (St F n)
  | fuel, st, old =>
    match checkContinue E st with
    | (false, st) => .ok st
    | (true, st) =>
      match fuel with
      | 0 => .error (.diverges, st)
      | fuel + 1 =>
        match iterate E st old with
        | .error e => .error e
        | .ok (st, old) => loop E fuel st old

/-- the `hess0` argument of `minimize`: the string `'hess'` or any other object -/
inductive Hess0 (F : Type) where
  | hessStr
  | val (v : PyVal F)

/-- `_init_mat` with a Python value (hessian_approximation.py:27-49).  Simplification: an array with the right first
dimension that is not `n × n` passes the check of the code and breaks later; the model raises ValueError. -/
def initHapp (h : Happ F n) (v : PyVal F) : Except PyErr (Happ F n) :=
  match initShapeCheck n v with
  | .error e => .error e
  | .ok () =>
    match v with
    | .none => .ok (h.initMat none)
    | v =>
      match v.toMat? n n with
      | some m => .ok (h.initMat (some m))
      | none => .error .valueError

/-- the choice of the initial Hessian approximation (minimize.py:366-373); without approximation the first evaluation must
contain a Hessian (`funout.hess.copy()` raises AttributeError on None) -/
def initialHapp (happ : Option (Happ F n)) (hess0 : Hess0 F) (raw : RawOut F) : Except PyErr (Option (Happ F n)) :=
  match happ with
  | some h =>
    match initHapp h (match hess0 with | .hessStr => raw.hess | .val v => v) with
    | .error e => .error e
    | .ok h => .ok (some h)
  | none => match raw.hess with | .none => .error .attributeError | _ => .ok none

/-- from the first evaluation to the start of the loop (minimize.py:363-383).  Simplification: when `_init_mat` or
`checkdims` raise, `self.fval`/`self.grad` already hold the new values in the code, in the model they do not. -/
def setup (E : Env F n) (hess0 : Hess0 F) (st : St F n) : Except (PyErr × St F n) (St F n × Funout F n) :=
  match funEval E.nargout E.resfun (E.obj st.evals.length st.x) with                    -- 363
  | .error e => .error (e, { st with evals := { arg := st.x, out := .error e } :: st.evals })
  | .ok raw =>
    let log (o : Except PyErr (Funout F n)) : St F n := { st with evals := { arg := st.x, out := o } :: st.evals }
    match initialHapp st.happ hess0 raw with                                            -- 366-373
    | .error e => .error (e, log (.error e))
    | .ok happ =>
      match checkdims n raw with                                                        -- 375
      | .error e => .error (e, log (.error e))
      | .ok () =>
        match raw.typed st.x st.xId with
        | none => .error (.valueError, log (.error .valueError))
        | some fo =>
          let hess : Mat F n n := match happ with | some h => h.getMat | none => fo.hess.getD mzero   -- 371-373
          let st : St F n := { log (.ok fo) with fval := fo.fval, grad := fo.grad, happ := happ, hess := hess }
          let st := trackMinimum fo st                                                  -- 377
          match checkFinite fo.fval fo.grad fo.hess st with                             -- 381
          | .error e => .error e
          | .ok st => .ok ({ st with converged := false }, fo)                          -- 383

/-- writing the history file after the loop (minimize.py:437-441): `create_group` refuses an existing name.
Simplification: the write itself does not fail half-way. -/
def writeHistory (E : Env F n) (st : St F n) : Except (PyErr × St F n) (St F n) :=
  if E.opts.history then
    if st.file.any (fun g => g.1 = st.startId) then .error (.valueError, st)
    else .ok { st with file := st.file ++ [(st.startId, st.history)] }
  else .ok st

/-- `Optimizer.minimize` (minimize.py:313-443).  On success the returned tuple is `(st.fval, st.x, st.grad, st.hess)`.
For `n = 0` numpy's `min` raises ValueError in `make_non_degenerate`. -/
def minimize (E : Env F n) (fuel : Nat) (x0 : Vec F n) (startId : String) (hess0 : Hess0 F) (st : St F n) :
    Except (PyErr × St F n) (St F n) :=
  let st := reset E startId st                                                          -- 355
  let st := { st with x := x0, xId := st.nextId, nextId := st.nextId + 1 }              -- 357
  if n = 0 then .error (.valueError, st)
  else
    let st := makeNonDegenerate E st                                                    -- 360
    match checkInBounds E st.x st with                                                  -- 361
    | .error e => .error e
    | .ok st =>
      match setup E hess0 st with                                                       -- 363-383
      | .error e => .error e
      | .ok (st, fo) =>
        match loop E fuel st fo with                                                    -- 385-435
        | .error e => .error e
        | .ok st => writeHistory E st                                                   -- 437-443

end Fides
