import Verif.Model.Constants
import Verif.Model.Hessian

/-!
# Model of `FunEvaluator` and `Funout` (minimize.py:40-157) and of the checks in `Optimizer.__init__`
-/

namespace Fides
variable {F : Type} [FloatOps F] {n : Nat}

/-- What a call of the user's objective does: raise, return a tuple, or return something that is not a tuple. -/
inductive Ret (F : Type) where
  | raised
  | tuple (vals : List (PyVal F))
  | single (v : PyVal F)

/-- A `Funout` object (minimize.py:85-100) before anything is known about shapes; an absent attribute is `none`. -/
structure RawOut (F : Type) where
  fval : PyVal F
  grad : PyVal F
  hess : PyVal F
  res : PyVal F
  sres : PyVal F

/-- row-major entry of a 2-d array with `k` columns -/
def entry (data : List F) (k i j : Nat) : F := data.getD (i * k + j) FloatOps.nan

/-- the products formed in residual mode (minimize.py:66-75) for `res` of shape `(m,)` and `sres` of shape `(m, k)`:
`0.5 * res.T.dot(res)`, `res.T.dot(sres)`, `sres.T.dot(sres)` -/
def resOut (m k : Nat) (r : List F) (sr : List F) : RawOut F :=
  let res : Vec F m := fun i => r.getD i.val FloatOps.nan
  let sres : Mat F m k := fun i j => entry sr k i.val j.val
  { fval := .scalar (lit (1 / 2) * dot res res)
    grad := .ofVec (vecMul res sres)
    hess := .ofMat (mulTM sres sres)
    res := .arr [m] r
    sres := .arr [m, k] sr }

/-- `FunEvaluator.__call__` (minimize.py:51-82).  Simplification: in residual mode only a 1-d `res` and a 2-d `sres` with
matching first dimension are modelled; for every other pair of objects the model raises. -/
def funEval (nargout : Nat) (resfun : Bool) : Ret F → Except PyErr (RawOut F)
  | .raised => .error .userError
  | .single _ => .error .valueError                                                     -- 54-64
  | .tuple vals =>
    if vals.length ≠ nargout then .error .valueError                                    -- 54-64
    else if resfun then
      match vals with
      | [.arr [m] r, .arr [m', k] sr] => if m = m' then .ok (resOut m k r sr) else .error .valueError
      | [_, _] => .error .typeError
      | _ => .error .valueError                                                         -- 67: unpacking
    else if nargout = 3 then
      match vals with
      | [f, g, h] => .ok { fval := f, grad := g, hess := h, res := .none, sres := .none }   -- 77-79
      | _ => .error .valueError
    else
      match vals with
      | [f, g] => .ok { fval := f, grad := g, hess := .none, res := .none, sres := .none }  -- 81-82
      | _ => .error .valueError

/-- `Funout.checkdims` (minimize.py:102-154), `n = len(self.x)` -/
def checkdims (n : Nat) (o : RawOut F) : Except PyErr Unit :=
  match o.fval with
  | .scalar _ =>
    match o.grad with
    | .scalar _ => .error .valueError                                                   -- 108-111
    | .none => .error .attributeError
    | .other => .error .attributeError
    | .arr gs _ =>
      if gs.length ≠ 1 then .error .valueError                                          -- 113-118
      else if gs.headD 0 ≠ n then .error .valueError                                    -- 119-125
      else
        match o.hess with
        | .none => .ok ()                                                               -- 127-128
        | .scalar _ => .error .valueError                                               -- 130-133
        | .other => .error .attributeError
        | .arr hs _ =>
          if hs.length ≠ 2 then .error .valueError                                      -- 135-140
          else if hs.headD 0 ≠ hs.getD 1 0 then .error .valueError                      -- 142-146
          else if hs.headD 0 ≠ n then .error .valueError                                -- 148-154
          else .ok ()
  | _ => .error .valueError                                                             -- 103-106

/-- residuals and sensitivities of one evaluation -/
structure ResData (F : Type) (n : Nat) where
  m : Nat
  res : Vec F m
  sres : Mat F m n

/-- read the residual data with a given number of residuals -/
def ResData.castTo (r : ResData F n) (m : Nat) : Option (Vec F m × Mat F m n) :=
  if h : r.m = m then some (fun i => r.res (Fin.cast h.symm i), fun i => r.sres (Fin.cast h.symm i)) else none

/-- A `Funout` with the right shapes; `xId` is the identity of the array object `funout.x`. -/
structure Funout (F : Type) (n : Nat) where
  x : Vec F n
  xId : Nat
  fval : F
  grad : Vec F n
  hess : Option (Mat F n n)
  res : Option (ResData F n)

/-- residual arrays of a raw output -/
def RawOut.resData (n : Nat) (o : RawOut F) : Option (ResData F n) :=
  match o.res, o.sres with
  | .arr [m] r, .arr [m', k] sr =>
    if m = m' ∧ k = n then
      some { m := m, res := fun i => r.getD i.val FloatOps.nan, sres := fun i j => entry sr n i.val j.val }
    else none
  | _, _ => none

/-- A raw output read as numbers, when the shapes are right (`checkdims` passes). -/
def RawOut.typed (o : RawOut F) (x : Vec F n) (xId : Nat) : Option (Funout F n) :=
  match o.fval, o.grad.toVec? n with
  | .scalar f, some g =>
    match o.hess with
    | .none => some { x, xId, fval := f, grad := g, hess := none, res := o.resData n }
    | h =>
      match h.toMat? n n with
      | some hm => some { x, xId, fval := f, grad := g, hess := some hm, res := o.resData n }
      | none => none
  | _, _ => none

/-- `nargout` (minimize.py:227-235) -/
def nargoutOf : Option (Happ F n) → Nat
  | none => 3
  | some h => if h.requiresHess && !h.requiresResfun then 3 else 2

/-- The checks of `Optimizer.__init__` (minimize.py:227-270), in order. -/
def optimizerInit (happ : Option (Happ F n)) (resfun : Bool) (options : List (RawKey × RawVal)) : Except PyErr Unit :=
  match happ with
  | some h => if resfun ≠ h.requiresResfun then .error .valueError else rest            -- 242-251
  | none => rest
where
  rest : Except PyErr Unit :=
    match validateOptions options with                                                  -- 259
    | .error e => .error e
    | .ok () =>
      if (getOption options .subspaceDim).toSubspace = .steihaug ∧
          (getOption options .stepbackStrat).toStepback = .refine then .error .valueError   -- 263-270
      else .ok ()

end Fides
