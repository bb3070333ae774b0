import Verif.Model.Py

/-!
# Model of `fides/hessian_approximation.py`

Every definition cites the lines it models.  Objects become structures; methods that mutate `self` return the
new object.  The dimension `n` is a type parameter: shape errors other than the explicit checks in
`_init_mat` (lines 42-47) and `set_mat` (lines 76-81) are not modelled.
Before `_init_mat` the Python attributes are `np.empty(0)` (lines 24-25); the model uses a zero
matrix as placeholder, which no method reads before `_init_mat` replaced it in `Optimizer.minimize`.
-/

namespace Fides
variable {F : Type} [FloatOps F] {n : Nat}

/-- `broyden_class_update`, hessian_approximation.py:604-642. -/
def broydenClassUpdate (y s : Vec F n) (mat : Mat F n n) (phi : F) (enforceCurvCond : Bool) : Mat F n n :=
  let u := mulVec mat s                                  -- 629
  let c := dot u s                                       -- 630
  let b := dot y s                                       -- 631
  if le b (lit 0) && enforceCurvCond then mzero          -- 633-634
  else
    let update := msub (mdiv (outer y y) b) (mdiv (outer u u) c)   -- 636
    if !feq phi (lit 0) then                             -- 638
      let v := vsub (fun i => y i / b) (fun i => u i / c)          -- 639
      madd update (msmul (phi * c) (outer v v))          -- 640
    else update

/-- The iterative schemes: `Broyden(phi, enforce_curv_cond)` (122-162), `SR1` (201-219), `BG` (222-234),
`BB` (237-253). -/
inductive IterScheme (F : Type) where
  | broyden (phi : F) (enforceCurvCond : Bool)
  | sr1
  | bg
  | bb

/-- `BFGS(enforce_curv_cond)`: `Broyden(phi=0.0)`, lines 165-180 -/
def IterScheme.bfgs (enforce : Bool := true) : IterScheme F := .broyden (lit 0) enforce
/-- `DFP(enforce_curv_cond)`: `Broyden(phi=1.0)`, lines 183-198 -/
def IterScheme.dfp (enforce : Bool := true) : IterScheme F := .broyden (lit 1) enforce

/-- An `IterativeHessianApproximation` instance: scheme, `_hess`, `_diff` (lines 97-119, 24-25). -/
structure IterApprox (F : Type) (n : Nat) where
  scheme : IterScheme F
  hess : Mat F n n
  diff : Mat F n n

namespace IterApprox

/-- a new instance, before `_init_mat` (lines 20-25) -/
def new (scheme : IterScheme F) : IterApprox F n := { scheme, hess := mzero, diff := mzero }

/-- `HessianApproximation._init_mat` after the shape check (lines 39-49) -/
def initMat (h : IterApprox F n) (hess0 : Option (Mat F n n)) : IterApprox F n :=
  { h with hess := hess0.getD meye, diff := mzero }

/-- `get_mat` (51-58), `get_diff` (60-67) -/
def getMat (h : IterApprox F n) : Mat F n n := h.hess
def getDiff (h : IterApprox F n) : Mat F n n := h.diff

/-- `set_mat` after the shape check (69-82) -/
def setMat (h : IterApprox F n) (mat : Mat F n n) : IterApprox F n := { h with hess := mat }

/-- `_compute_update` of `Broyden` (159-162), `SR1` (211-219), `BG` (232-234).  For `BB`, which does not define it,
the base method raises NotImplementedError (115-116); it is never called, see `update`. -/
def computeUpdate (h : IterApprox F n) (s y : Vec F n) : Mat F n n :=
  match h.scheme with
  | .broyden phi enforce => broydenClassUpdate y s h.hess phi enforce
  | .sr1 =>
    let z := vsub y (mulVec h.hess s)                                            -- 212
    let d := dot z s                                                             -- 213
    if le (FloatOps.sqrt spacing1 * norm s * norm z) (FloatOps.abs d) then       -- 216
      mdiv (outer z z) d                                                         -- 217
    else mzero                                                                   -- 219
  | .bg =>
    let z := vsub y (mulVec h.hess s)                                            -- 233
    mdiv (outer z s) (dot s s)                                                   -- 234
  | .bb => h.diff

/-- `update`: for `Broyden`, `SR1`, `BG` compute then apply `_hess += _diff` (102-119); `BB` overrides `update`
(247-253) and only stores `_diff`. -/
def update (h : IterApprox F n) (s y : Vec F n) : IterApprox F n :=
  match h.scheme with
  | .bb =>
    let b := dot y s                                                             -- 248
    let z := vsub y (mulVec h.hess s)                                            -- 249
    if le b (lit 0) then { h with diff := mzero }                                -- 250-251
    else { h with diff := mdiv (outer z s) b }                                   -- 253
  | _ =>
    let d := h.computeUpdate s y                                                 -- 112
    { h with diff := d, hess := madd h.hess d }                                  -- 113, 119

end IterApprox

/-- A `StructuredApproximation` instance (lines 422-495): `A`, `phi`, `enforce_curv_cond`, `_structured_diff`,
`_hess`, `_diff`. -/
structure Structured (F : Type) (n : Nat) where
  phi : F
  enforceCurvCond : Bool
  A : Mat F n n
  sdiff : Mat F n n
  hess : Mat F n n
  diff : Mat F n n

namespace Structured

def new (phi : F) (enforce : Bool) : Structured F n :=
  { phi, enforceCurvCond := enforce, A := mzero, sdiff := mzero, hess := mzero, diff := mzero }

/-- `StructuredApproximation._init_mat` (457-460) after the shape check -/
def initMat (h : Structured F n) (hess0 : Option (Mat F n n)) : Structured F n :=
  { h with
    A := fun i j => (meye : Mat F n n) i j * spacing1      -- 458
    sdiff := mzero                                          -- 459
    hess := hess0.getD meye
    diff := mzero }

/-- `_update_hess_and_store_diff` (92-94) -/
def storeHess (h : Structured F n) (hess : Mat F n n) : Structured F n :=
  { h with diff := msub hess h.hess, hess := hess }

/-- `SSM.update` (507-525) -/
def updateSSM (h : Structured F n) (s _y : Vec F n) (hess : Mat F n n) (yb : Vec F n) : Structured F n :=
  let bs := madd hess h.A                                                        -- 516
  let ys := vadd yb (mulVec hess s)                                              -- 518
  let sd := broydenClassUpdate ys s bs h.phi h.enforceCurvCond                   -- 520-522
  let h1 := { h with sdiff := sd, A := madd h.A sd }                             -- 523
  h1.storeHess (madd hess h1.A)                                                  -- 525

/-- `TSSM.update` (537-555); `nr = norm(r)` -/
def updateTSSM (h : Structured F n) (s _y : Vec F n) (nr : F) (hess : Mat F n n) (yb : Vec F n) : Structured F n :=
  let bs := madd hess (msmul nr h.A)                                             -- 546
  let ys := vadd (mulVec hess s) yb                                              -- 548
  let sd := mdiv (broydenClassUpdate ys s bs h.phi h.enforceCurvCond) nr         -- 550-552
  let h1 := { h with sdiff := sd, A := madd h.A sd }                             -- 553
  h1.storeHess (madd hess (msmul nr h1.A))                                       -- 555

/-- `GNSBFGS.update` (576-601); `nr = norm(r)` -/
def updateGNSBFGS (h : Structured F n) (tol : F) (s _y : Vec F n) (nr : F) (hess : Mat F n n) (yb : Vec F n) :
    Structured F n :=
  let ratio := dot yb s / dot s s                                                -- 585
  if lt tol ratio then                                                           -- 586
    let sd := broydenClassUpdate yb s h.A h.phi h.enforceCurvCond                -- 588-594
    let h1 := { h with sdiff := sd, A := madd h.A sd }                           -- 595
    h1.storeHess (madd hess h1.A)                                                -- 597
  else
    let h1 := { h with sdiff := mzero }                                          -- 600
    h1.storeHess (madd hess (msmul nr meye))                                     -- 601

end Structured

/-- A `HybridApproximation` instance: inner iterative scheme plus own `_hess`, `_diff` (256-273). -/
structure Hybrid (F : Type) (n : Nat) where
  inner : IterApprox F n
  hess : Mat F n n
  diff : Mat F n n

namespace Hybrid

/-- `HybridApproximation.__init__` (257-266) -/
def new (inner : IterScheme F) : Hybrid F n := { inner := .new inner, hess := mzero, diff := mzero }

/-- `HybridApproximation._init_mat` (268-270) after the shape checks -/
def initMat (h : Hybrid F n) (hess0 : Option (Mat F n n)) : Hybrid F n :=
  { inner := h.inner.initMat hess0, hess := hess0.getD meye, diff := mzero }

/-- `HybridSwitchApproximation._switched_update` (277-280) together with `_update_hess_and_store_diff` (92-94) -/
def switchedUpdate (h : Hybrid F n) (switched : Bool) (s y : Vec F n) (hess : Mat F n n) : Hybrid F n :=
  let inner := h.inner.update s y                                                -- 278
  let newHess := if switched then inner.getMat else hess                         -- 279
  { inner := inner, diff := msub newHess h.hess, hess := newHess }               -- 280

/-- `FX.update` (379-412) -/
def updateFX {m : Nat} (h : Hybrid F n) (tol : F) (delta gamma : Vec F n) (r rprev : Vec F m) (hess : Mat F n n) :
    Hybrid F n :=
  let ratio := (dot rprev rprev - dot r r) / dot rprev rprev                     -- 406
  if le tol ratio then                                                           -- 407
    { h with diff := msub hess h.inner.getMat, inner := h.inner.setMat hess }    -- 408-409
  else
    let inner := h.inner.update delta gamma                                      -- 411
    { h with inner := inner, diff := inner.getDiff }                             -- 412

end Hybrid

/-- Any object that may be passed as `hessian_update`.  `base` stands for a direct instance of `HessianApproximation`
(or of a subclass that `Optimizer.update` does not dispatch on). -/
inductive Happ (F : Type) (n : Nat) where
  | base (hess diff : Mat F n n)
  | iter (h : IterApprox F n)
  | hybridFixed (switchIteration : Int) (switched : Bool) (h : Hybrid F n)
  | hybridFraction (switchThreshold : F) (switched : Bool) (h : Hybrid F n)
  | fx (tol : F) (h : Hybrid F n)
  | ssm (h : Structured F n)
  | tssm (h : Structured F n)
  | gnsbfgs (tol : F) (h : Structured F n)

namespace Happ

/-- `_init_mat` of the class of the object, after the shape check (39-49, 268-270, 457-460).  The switch flags of
`HybridFixed`/`HybridFraction` are set in `__init__` only (304, 342). -/
def initMat (h : Happ F n) (hess0 : Option (Mat F n n)) : Happ F n :=
  match h with
  | base _ _ => base (hess0.getD meye) mzero
  | iter h => iter (h.initMat hess0)
  | hybridFixed k sw h => hybridFixed k sw (h.initMat hess0)
  | hybridFraction t sw h => hybridFraction t sw (h.initMat hess0)
  | fx t h => fx t (h.initMat hess0)
  | ssm h => ssm (h.initMat hess0)
  | tssm h => tssm (h.initMat hess0)
  | gnsbfgs t h => gnsbfgs t (h.initMat hess0)

/-- `get_mat` (51-58); `FX.get_mat` (414-415) -/
def getMat : Happ F n → Mat F n n
  | base h _ => h
  | iter h => h.getMat
  | hybridFixed _ _ h => h.hess
  | hybridFraction _ _ h => h.hess
  | fx _ h => h.inner.getMat
  | ssm h => h.hess
  | tssm h => h.hess
  | gnsbfgs _ h => h.hess

/-- `get_diff` (60-67) -/
def getDiff : Happ F n → Mat F n n
  | base _ d => d
  | iter h => h.getDiff
  | hybridFixed _ _ h => h.diff
  | hybridFraction _ _ h => h.diff
  | fx _ h => h.diff
  | ssm h => h.diff
  | tssm h => h.diff
  | gnsbfgs _ h => h.diff

/-- `requires_resfun` (84-86, 417-419, 486-488) -/
def requiresResfun : Happ F n → Bool
  | fx _ _ => true
  | ssm _ => true
  | tssm _ => true
  | gnsbfgs _ _ => true
  | _ => false

/-- `requires_hess` (88-90, 272-273, 490-492).  In `HybridApproximation` it is a plain method, so the attribute read in
`Optimizer.__init__` is a bound method, which is truthy. -/
def requiresHess : Happ F n → Bool
  | base _ _ => false
  | iter _ => false
  | _ => true

/-- `HybridFixed.update` (306-315) -/
def updateFixed (k : Int) (switched : Bool) (h : Hybrid F n) (s y : Vec F n) (hess : Mat F n n)
    (iterSinceTrUpdate : Nat) : Happ F n :=
  let h' := h.switchedUpdate switched s y hess                                   -- 313
  let sw := if !switched then decide (k ≤ (iterSinceTrUpdate : Int)) else switched   -- 314-315
  hybridFixed k sw h'

/-- `HybridFraction.update` (344-354) -/
def updateFraction (t : F) (switched : Bool) (h : Hybrid F n) (s y : Vec F n) (hess : Mat F n n)
    (trNonupdates iterations : Nat) : Happ F n :=
  let h' := h.switchedUpdate switched s y hess                                   -- 352
  let sw := if !switched && decide (25 < iterations) then                        -- 353
      lt t (lit ((trNonupdates : ℚ) / (iterations : ℚ)))                         -- 354
    else switched
  hybridFraction t sw h'

end Happ

/-- The shape check of `_init_mat` (41-47): `None` passes, otherwise `hess.shape[0]` must equal `dim`.
(A 0-d array has no `shape[0]`: IndexError; a scalar or other object has no `.shape`/`.copy`: AttributeError.) -/
def initShapeCheck (dim : Nat) : PyVal F → Except PyErr Unit
  | .none => .ok ()
  | .arr (k :: _) _ => if k ≠ dim then .error .valueError else .ok ()
  | .arr [] _ => .error .indexError
  | .scalar _ => .error .attributeError
  | .other => .error .attributeError

/-- The shape check of `set_mat` (76-81). -/
def setMatCheck (cur new : List Nat) : Except PyErr Unit :=
  if new ≠ cur then .error .valueError else .ok ()

end Fides
