import Verif.Model.Subproblem

/-!
# Model of `fides/steps.py`

A subspace (2-d array whose columns span the search space) is the list of its columns; the
coefficient vector `sc` is a list.  `csc_matrix(np.diag(d))` is represented by its diagonal; sparse products skip
stored zeros (`np.diag` zeros are not stored), see `sdot`.
-/

namespace Fides
variable {F : Type} [FloatOps F] {n : Nat}

/-- `normalize`, steps.py:24-33 (the in-place result is returned). -/
def normalize (v : Vec F n) : Vec F n :=
  let nv := norm v
  if lt (lit 0) nv then fun i => v i / nv else v

/-- `D.dot(v)` for `D = csc_matrix(np.diag(d))`: zero entries are not stored, so they give an exact zero. -/
def sdot (d v : Vec F n) : Vec F n := fun i => if feq (d i) (lit 0) then lit 0 else d i * v i

/-- `type` class variables (steps.py:73, 256, 273, 332, 357, 407, 452, 501, 520) -/
inductive StepType where
  | nd | twoD | cgs | trr | trt | g | ref
  deriving DecidableEq, Repr

/-- Constructor arguments common to all step objects built in one call of `trust_region` (steps.py:75-87). -/
structure Prob (F : Type) (n : Nat) where
  x : Vec F n
  sg : Vec F n
  hess : Mat F n n
  /-- diagonal of `scaling` -/
  scaling : Vec F n
  /-- diagonal of `g_dscaling` -/
  gDscaling : Vec F n
  delta : F
  theta : F
  ub : Vec F n
  lb : Vec F n

/-- `shess = scaling * hess * scaling + g_dscaling` (steps.py:139-141) -/
def Prob.shess (P : Prob F n) : Mat F n n := fun i j =>
  let dh : F := if feq (P.scaling i) (lit 0) then lit 0 else P.scaling i * P.hess i j
  let dhd : F := if feq (P.scaling j) (lit 0) then lit 0 else dh * P.scaling j
  if i = j then dhd + P.gDscaling i else dhd

/-- A step object (attributes of `Step`, steps.py:111-152).  `posdef`/`newton` are `none` where the attribute does
not exist. -/
structure Step (F : Type) (n : Nat) where
  type : StepType
  x : Vec F n
  subspace : List (Vec F n)
  s0 : Vec F n
  ss0 : Vec F n
  s : Vec F n
  sc : List F
  ss : Vec F n
  ogS : Vec F n
  ogSc : List F
  ogSs : Vec F n
  br : Vec F n
  minbr : F
  alpha : F
  iminbr : Fin n → Bool
  qpval : F
  reflIdx : Fin n → Bool
  truncIdx : Fin n → Bool
  posdef : Option Bool
  newton : Option Bool

/-- `Step.__init__` (steps.py:75-152) with a given subspace, before `calculate` -/
def Step.init (P : Prob F n) (type : StepType) (subspace : List (Vec F n)) : Step F n :=
  { type, subspace, x := P.x, s0 := vzero, ss0 := vzero, s := vzero, sc := [], ss := vzero,
    ogS := vzero, ogSc := [], ogSs := vzero, br := fun _ => lit 1, minbr := lit 1, alpha := lit 1,
    iminbr := fun _ => false, qpval := lit 0, reflIdx := fun _ => false, truncIdx := fun _ => false,
    posdef := none, newton := none }

/-- `Step.step_back` (steps.py:172-205) -/
def Step.stepBack (P : Prob F n) (st : Step F n) : Step F n :=
  let br : Vec F n := fun i =>                                                         -- 182-197
    if lt (lit 0) (FloatOps.abs (st.s i)) then
      npMax2 ((P.ub i - st.x i) / st.s i) ((P.lb i - st.x i) / st.s i)
    else FloatOps.inf
  let minbr := vmin br                                                                 -- 198
  let alpha := npMin2 (lit 1) (P.theta * minbr)                                        -- 201
  { st with
    ogS := st.s, ogSs := st.ss, ogSc := st.sc                                          -- 178-180
    br := br
    minbr := minbr
    iminbr := fun i => feq (br i) minbr                                                -- 199
    alpha := alpha
    s := fun i => st.s i * alpha                                                       -- 203
    sc := st.sc.map (fun c => c * alpha)                                               -- 204
    ss := fun i => st.ss i * alpha }                                                   -- 205

/-- `subspace.dot(sc)` -/
def subDot (cols : List (Vec F n)) (sc : List F) : Vec F n := fun i =>
  FloatOps.sum (List.zipWith (fun (c : Vec F n) t => c i * t) cols sc)

/-- `chess = subspace.T.dot(shess.dot(subspace))` (steps.py:212) -/
def chess (shess : Mat F n n) (cols : List (Vec F n)) : Mat F cols.length cols.length := fun a b =>
  dot (cols.get a) (mulVec shess (cols.get b))

/-- `cg = subspace.T.dot(sg)` (steps.py:213) -/
def cg (sg : Vec F n) (cols : List (Vec F n)) : Vec F cols.length := fun a => dot (cols.get a) sg

/-- `Step.compute_step` (steps.py:215-237): sets `sc`, `ss`, `s`. -/
def Step.computeStep (O : SubOracles F) (P : Prob F n) (st : Step F n) : Except PyErr (Step F n) :=
  match st.subspace with
  | [] => .ok { st with sc := [], ss := vzero, s := vzero }                             -- 220-224
  | [c] =>
    let sc := [solve1d P.shess P.sg c P.delta st.ss0]                                   -- 233-235
    let ss := subDot [c] sc                                                             -- 236
    .ok { st with sc := sc, ss := ss, s := sdot P.scaling ss }                          -- 237
  | cols =>
    let radius := FloatOps.sqrt (pyMax (P.delta * P.delta - norm st.ss0 * norm st.ss0) (lit 0))   -- 229
    match solveNd O (chess P.shess cols) (cg P.sg cols) radius with                     -- 226-231
    | .error e => .error e
    | .ok (sc, _) =>
      let sc := List.ofFn sc
      let ss := subDot cols sc
      .ok { st with sc := sc, ss := ss, s := sdot P.scaling ss }

/-- `Step.calculate` (steps.py:239-247) -/
def Step.calculate (O : SubOracles F) (P : Prob F n) (st : Step F n) : Except PyErr (Step F n) :=
  match st.computeStep O P with
  | .error e => .error e
  | .ok st =>
    let st := st.stepBack P
    .ok { st with qpval := quadraticForm P.shess P.sg (vadd st.ss st.ss0) }

/-- External routines used in steps.py. -/
structure Oracles (F : Type) where
  sub : SubOracles F
  /-- `scipy.linalg.lstsq(a, b)[0]` (lines 281, 294) -/
  lstsq : {n : Nat} → Mat F n n → Vec F n → Except PyErr (Vec F n)
  /-- `np.linalg.eig` (line 283): real parts and moduli of eigenvalues, real parts of eigenvectors -/
  npEig : {n : Nat} → Mat F n n → Except PyErr (Vec F n × Vec F n × Mat F n n)
  /-- `scipy.optimize.minimize(method='trust-constr')` in `RefinedStep.calculate` (lines 554-563): `res.x` -/
  refine : {n : Nat} → Prob F n → Step F n → Except PyErr (List F)

/-- `TRStepFull` (steps.py:250-264): the columns of the identity -/
def stepFull (O : Oracles F) (P : Prob F n) : Except PyErr (Step F n) :=
  (Step.init P .nd (List.ofFn fun j : Fin n => fun i : Fin n => (meye : Mat F n n) i j)).calculate O.sub P

/-- orthogonalisation at the end of `TRStep2D.__init__` (steps.py:314-323) -/
def subspace2dOrth (sNewt sGrad : Vec F n) : List (Vec F n) :=
  let sNewt := normalize sNewt                                                          -- 314
  let d := dot sNewt sGrad
  let sGrad := vsub sGrad (fun i => sNewt i * d)                                        -- 315
  if lt spacing1 (norm sGrad) then [sNewt, normalize sGrad]                             -- 317-319
  else [sNewt]                                                                          -- 323

/-- subspace selection of `TRStep2D.__init__` (steps.py:281-323): subspace, `posdef`, `newton` -/
def subspace2d (O : Oracles F) (P : Prob F n) : Except PyErr (List (Vec F n) × Option Bool × Option Bool) :=
  match O.lstsq P.shess P.sg with                                                       -- 281
  | .error e => .error e
  | .ok newt0 =>
    match O.npEig P.shess with                                                          -- 283
    | .error e => .error e
    | .ok (re, ab, v) =>
      let maxabs := (List.ofFn ab).foldl npMax2 (lit 0)
      let posdef := lt (-spacing1 * maxabs) (vmin re)                                   -- 284
      if n = 1 then                                                                     -- 286-289
        .ok ([fun i => -P.sg i / P.shess i i], some posdef, none)
      else if posdef then
        let sNewt := vneg newt0                                                         -- 294 (same call as 281)
        if lt (norm sNewt) P.delta then                                                 -- 296-301
          .ok ([normalize sNewt], some posdef, some true)
        else .ok (subspace2dOrth sNewt P.sg, some posdef, some false)                   -- 304
      else
        match argminIdx re with
        | none => .error .valueError
        | some j =>
          let sNewt : Vec F n := fun i => v i j                                         -- 311
          let sGrad := sdot P.scaling (fun i => fsign (P.sg i) + (if feq (P.sg i) (lit 0) then lit 1 else lit 0))
          .ok (subspace2dOrth sNewt sGrad, some posdef, some false)

/-- `TRStep2D` (steps.py:267-323) -/
def step2d (O : Oracles F) (P : Prob F n) : Except PyErr (Step F n) :=
  match subspace2d O P with
  | .error e => .error e
  | .ok (cols, pd, nw) => ({ Step.init P .twoD cols with posdef := pd, newton := nw } : Step F n).calculate O.sub P

/-- what `TRStepSteihaug.conj_grad` sets: `subspace`, `sc`, `ss`, `ss0` -/
structure CGOut (F : Type) (n : Nat) where
  subspace : List (Vec F n)
  sc : List F
  ss : Vec F n
  ss0 : Vec F n

/-- the `while True` loop of `TRStepSteihaug.conj_grad` (steps.py:367-398); `diverges` when the fuel runs out -/
def steihaugLoop (P : Prob F n) (eps : F) : Nat → Vec F n → Vec F n → Vec F n → Except PyErr (CGOut F n)
  | 0, _, _, _ => .error .diverges
  | k + 1, z, r, d =>
    let bd := mulVec P.shess d                                                          -- 368
    let c := dot d bd                                                                   -- 369
    let r2 := dot r r                                                                   -- 370
    let alpha := r2 / c                                                                 -- 371
    let zp := vadd z (vsmul alpha d)                                                    -- 372
    if le c (lit 0) || le P.delta (norm zp) then                                        -- 373
      let t := boundarySolution1d P.shess P.sg d z P.delta * lit 1                      -- 376-382
      .ok { subspace := [d], sc := [t], ss := subDot [d] [t], ss0 := z }                -- 374-384
    else
      let rp := vadd r (vsmul alpha bd)                                                 -- 385
      let rp2 := dot rp rp                                                              -- 386
      if lt (FloatOps.sqrt rp2) eps then                                                -- 387
        let d := normalize d                                                            -- 388
        let t := dot zp d * lit 1                                                       -- 390
        let ss := subDot [d] [t]                                                        -- 391
        .ok { subspace := [d], sc := [t], ss := ss, ss0 := vsub zp ss }                 -- 392
      else
        let beta := rp2 / r2                                                            -- 394
        steihaugLoop P eps k zp rp (vadd (vneg rp) (vsmul beta d))                      -- 396-398

/-- `CGStep.calculate` with `TRStepSteihaug.conj_grad` (steps.py:334-339, 359-398).  The early return at 363-365 leaves
`sc` and `subspace` at `None`, so `step_back` then raises AttributeError (line 180). -/
def stepSteihaug (fuel : Nat) (P : Prob F n) : Except PyErr (Step F n) :=
  let nsg := norm P.sg                                                                  -- 335
  let eps := pyMin (lit (1 / 2)) (FloatOps.sqrt nsg) * nsg                              -- 336
  if lt (norm P.sg) eps then .error .attributeError                                     -- 363-365, 180
  else
    match steihaugLoop P eps fuel vzero P.sg (vneg P.sg) with
    | .error e => .error e
    | .ok o =>
      let st : Step F n := { Step.init P .cgs o.subspace with sc := o.sc, ss := o.ss, ss0 := o.ss0,
                                                               s := sdot P.scaling (vadd o.ss o.ss0) }   -- 337
      let st := st.stepBack P                                                           -- 338
      .ok { st with qpval := quadraticForm P.shess P.sg (vadd st.ss st.ss0) }           -- 339

/-- `TRStepReflected.__init__` (steps.py:409-443) -/
def reflectInit (P : Prob F n) (step : Step F n) : Step F n :=
  let alpha := pyMin step.minbr (lit 1)                                                 -- 430
  let s0 := vadd (vsmul alpha step.ogS) step.s0                                         -- 431
  let ss0 := vadd (vsmul alpha step.ogSs) step.ss0                                      -- 432
  let nss : Vec F n := fun i => if step.iminbr i then step.ogSs i * lit (-1) else step.ogSs i   -- 437-438
  { Step.init P .trr [normalize nss] with
    s0 := s0, ss0 := ss0, x := vadd P.x s0, reflIdx := step.iminbr }                    -- 434, 439-443

/-- `TRStepReflected(...)`, `.calculate()` -/
def stepReflected (O : Oracles F) (P : Prob F n) (step : Step F n) : Except PyErr (Step F n) :=
  (reflectInit P step).calculate O.sub P

/-- subspace reduction of `TRStepTruncated.__init__` (steps.py:483-490) -/
def reduceSubspace (iminbr : Fin n → Bool) (cols : List (Vec F n)) : List (Vec F n) :=
  let cols := cols.map (fun (c : Vec F n) (i : Fin n) => if iminbr i then lit 0 else c i)       -- 484
  let cols := cols.filter (fun c => decide (∃ i, feq (c i) (lit 0) = false))            -- 486
  cols.map normalize                                                                    -- 488-489

/-- `TRStepTruncated.__init__` (steps.py:454-493) -/
def truncateInit (P : Prob F n) (step : Step F n) : Step F n :=
  let s0 : Vec F n := fun i => if step.iminbr i then step.s0 i + P.theta * step.br i * step.ogS i else step.s0 i  -- 478
  let ss0 : Vec F n := fun i => if step.iminbr i then step.ss0 i + P.theta * step.br i * step.ogSs i else step.ss0 i
  { Step.init P .trt (reduceSubspace step.iminbr step.subspace) with
    s0 := s0, ss0 := ss0, x := vadd P.x s0, truncIdx := step.iminbr }                   -- 481, 490-493

/-- `TRStepTruncated(...)`, `.calculate()` -/
def stepTruncated (O : Oracles F) (P : Prob F n) (step : Step F n) : Except PyErr (Step F n) :=
  (truncateInit P step).calculate O.sub P

/-- `GradientStep` (steps.py:496-511) -/
def stepGradient (O : Oracles F) (P : Prob F n) : Except PyErr (Step F n) :=
  (Step.init P .g [normalize P.sg]).calculate O.sub P

/-- `RefinedStep` (steps.py:514-567) -/
def stepRefined (O : Oracles F) (P : Prob F n) (step : Step F n) : Except PyErr (Step F n) :=
  match O.refine P step with
  | .error e => .error e
  | .ok sc =>
    let ss := subDot step.subspace sc                                                   -- 564
    let st : Step F n := { Step.init P .ref step.subspace with
      sc := sc, ss := ss, s := sdot P.scaling ss, reflIdx := step.reflIdx, truncIdx := step.truncIdx }
    let st := st.stepBack P                                                             -- 566
    .ok { st with qpval := quadraticForm P.shess P.sg st.ss }                           -- 567

end Fides
