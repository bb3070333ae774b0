import Verif.Model.Py

/-!
# Model of `fides/subproblem.py`

`scipy.linalg.eig`, `scipy.optimize.newton` and `scipy.optimize.brentq` are parameters (`SubOracles`); each may
return anything or raise.  Logging is not modelled.
-/

namespace Fides
variable {F : Type} [FloatOps F] {n : Nat}

/-- `quadratic_form`, subproblem.py:17-28: `0.5 * x.T.dot(q).dot(x) + p.T.dot(x)`. -/
def quadraticForm (q : Mat F n n) (p x : Vec F n) : F :=
  lit (1 / 2) * dot (vecMul x q) x + dot p x

/-- `get_1d_trust_region_boundary_solution`, subproblem.py:73-81. -/
def boundarySolution1d (b : Mat F n n) (g s s0 : Vec F n) (delta : F) : F :=
  let a := dot s s                                                                    -- 74
  let bCoef := lit 2 * dot s0 s                                                       -- 75
  let c := dot s0 s0 - delta * delta                                                  -- 76
  let aux := bCoef + FloatOps.copysign (FloatOps.sqrt (bCoef * bCoef - lit 4 * a * c)) bCoef   -- 78
  let t1 := -aux / (lit 2 * a)                                                        -- 79
  let t2 := lit (-2) * c / aux
  let q := fun t => quadraticForm b g (vadd s0 (vsmul t s))                           -- 80
  argminGo q t1 [t2]                                                                  -- 81

/-- `solve_1d_trust_region_subproblem`, subproblem.py:31-70.  The length-1 array is returned as a scalar. -/
def solve1d (b : Mat F n n) (g s : Vec F n) (delta : F) (s0 : Vec F n) : F :=
  if feq delta (lit 0) then delta * lit 1                                             -- 52-53
  else if decide (∀ i, feq (s i) (lit 0) = true) then lit 0                           -- 55-56
  else
    let a := lit (1 / 2) * dot (mulVec b s) s                                         -- 58
    let bCoef := dot s (vadd (mulVec b s0) g)                                         -- 61
    let minq := -bCoef / (lit 2 * a)                                                  -- 63
    let tau := if lt (lit 0) a && le (norm (vadd (vsmul minq s) s0)) delta then minq  -- 64-66
      else boundarySolution1d b g s s0 delta                                          -- 68
    tau * lit 1                                                                       -- 70

/-- `slam`, subproblem.py:225-249. -/
def slam (lam : F) (w eigvals : Vec F n) (eigvecs : Mat F n n) : Vec F n :=
  let c : Vec F n := fun i =>
    let el := eigvals i + lam
    if feq el (lit 0) then w i else w i / el                                          -- 248
  mulVec eigvecs c                                                                    -- 249

/-- `dslam`, subproblem.py:252-275. -/
def dslam (lam : F) (w eigvals : Vec F n) (eigvecs : Mat F n n) : Vec F n :=
  let c : Vec F n := fun i =>
    let el := eigvals i + lam
    if feq el (lit 0) then (if feq (w i) (lit 0) then w i else FloatOps.inf)          -- 274
    else w i / (-(el * el))                                                           -- 273
  mulVec eigvecs c

/-- `secular`, subproblem.py:278-313. -/
def secular (lam : F) (w eigvals : Vec F n) (eigvecs : Mat F n n) (delta : F) : F :=
  if lt lam (-(vmin eigvals)) then FloatOps.inf                                       -- 306-307
  else
    let sn := norm (slam lam w eigvals eigvecs)
    if lt (lit 0) sn then lit 1 / sn - lit 1 / delta                                  -- 310-311
    else FloatOps.inf

/-- `dsecular`, subproblem.py:316-350. -/
def dsecular (lam : F) (w eigvals : Vec F n) (eigvecs : Mat F n n) (_delta : F) : F :=
  let s := slam lam w eigvals eigvecs
  let ds := dslam lam w eigvals eigvecs
  let sn := norm s
  if lt (lit 0) sn then -(dot s ds) / (sn * sn * sn)                                  -- 348
  else FloatOps.inf

/-- External routines used by `solve_nd_trust_region_subproblem`. -/
structure SubOracles (F : Type) where
  /-- real parts of eigenvalues and eigenvectors (columns) from `scipy.linalg.eig` (lines 138-140) -/
  eig : {k : Nat} → Mat F k k → Except PyErr (Vec F k × Mat F k k)
  /-- `newton(f, x0, fprime)` with `tol=1e-12, maxiter=100` (lines 172-179) -/
  newton : (F → F) → F → (F → F) → Except PyErr F
  /-- `brentq(f, a, b, xtol=1e-12, maxiter=m)` (lines 195-202) -/
  brentq : (F → F) → F → F → Nat → Except PyErr F

/-- label returned by `solve_nd_trust_region_subproblem` -/
inductive SubType where
  | zero | posdef | indef | hard
  deriving DecidableEq, Repr

/-- the bracketing loop, subproblem.py:190-193: remaining `maxiter`, `xa`, `xb` -/
def bracket (sec : F → F) : Nat → F → F → Nat × F × F
  | 0, xa, xb => (0, xa, xb)
  | m + 1, xa, xb => if lt (sec xb) (lit 0) then bracket sec m xb (xb * lit 10) else (m + 1, xa, xb)

/-- index of the first entry selected by `eigvals.argmin()` -/
def argminIdx (v : Vec F n) : Option (Fin n) :=
  match List.finRange n with
  | [] => none
  | i :: rest => some (argminGo v i rest)

/-- the hard case, subproblem.py:213-222 -/
def hardCase (w eigvals : Vec F n) (eigvecs : Mat F n n) (jmin : Fin n) (delta : F) : Vec F n :=
  let mineig := eigvals jmin
  let w' : Vec F n := fun i => if feq (eigvals i - mineig) (lit 0) then lit 0 else w i          -- 213
  let s := slam (-mineig) w' eigvals eigvecs                                                   -- 214
  let sigma := FloatOps.sqrt (pyMax (delta * delta - norm s * norm s) (lit 0))                 -- 219
  vadd s (vsmul sigma (fun i => eigvecs i jmin))                                               -- 220

/-- the second root-finding attempt, subproblem.py:187-210: `ok (some s)` if it returned, `ok none` to go on with the hard
case, `error` if an exception other than `RuntimeError` escapes -/
def brentAttempt (O : SubOracles F) (w eigvals : Vec F n) (eigvecs : Mat F n n) (delta laminit : F) :
    Except PyErr (Option (Vec F n)) :=
  let sec := fun l => secular l w eigvals eigvecs delta
  let xb0 := (laminit + FloatOps.sqrt spacing1) * lit 10                                       -- 188
  let q := bracket sec 100 laminit xb0                                                         -- 190-193
  if 0 < q.1 then                                                                              -- 194
    match O.brentq sec q.2.1 q.2.2 q.1 with
    | .ok r =>
      let s := slam r w eigvals eigvecs
      if le (norm s) (delta + FloatOps.sqrt spacing1) then .ok (some s) else .ok none          -- 204-208
    | .error .runtimeError => .ok none                                                         -- 209-210
    | .error e => .error e
  else .ok none

/-- the root-finding attempts, subproblem.py:169-210 -/
def rootFind (O : SubOracles F) (w eigvals : Vec F n) (eigvecs : Mat F n n) (delta laminit : F) :
    Except PyErr (Option (Vec F n)) :=
  let sec := fun l => secular l w eigvals eigvecs delta
  let dsec := fun l => dsecular l w eigvals eigvecs delta
  match O.newton sec laminit dsec with
  | .ok r =>
    let s := slam r w eigvals eigvecs                                                          -- 180
    if le (norm s) (delta + lit (1 / 1000000000000)) then .ok (some s)                         -- 181-183
    else brentAttempt O w eigvals eigvecs delta laminit
  | .error .runtimeError => brentAttempt O w eigvals eigvecs delta laminit                     -- 184-185
  | .error e => .error e

/-- `solve_nd_trust_region_subproblem`, subproblem.py:84-222. -/
def solveNd (O : SubOracles F) (b : Mat F n n) (g : Vec F n) (delta : F) : Except PyErr (Vec F n × SubType) :=
  if feq delta (lit 0) then .ok (vzero, .zero)                                                 -- 130-131
  else
    match O.eig b with                                                                         -- 138
    | .error e => .error e
    | .ok (eigvals, eigvecs) =>
      let w : Vec F n := fun i => -(dot (fun l => eigvecs l i) g)                               -- 141
      match argminIdx eigvals with                                                             -- 142
      | none => .error .valueError
      | some jmin =>
        let mineig := eigvals jmin
        let s := slam (lit 0) w eigvals eigvecs                                                -- 156
        if lt (lit 0) mineig && le (norm s) (delta + FloatOps.sqrt spacing1) then              -- 155-159
          .ok (s, .posdef)
        else
          let laminit := if lt (lit 0) mineig then lit 0 else -mineig                          -- 160-163
          let found : Except PyErr (Option (Vec F n)) :=
            if lt (secular laminit w eigvals eigvecs delta) (lit 0) then                       -- 169
              rootFind O w eigvals eigvecs delta laminit
            else .ok none
          match found with
          | .error e => .error e
          | .ok (some s) => .ok (s, .indef)
          | .ok none => .ok (hardCase w eigvals eigvecs jmin delta, .hard)

end Fides
