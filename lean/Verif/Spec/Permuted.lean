import Verif.Spec.Run
import Verif.Num

/-!
# Specification vocabulary: problems whose variables are listed in another order
-/

namespace Fides.Spec
open Fides Fides.Num
variable {n : ℕ}

/-- a vector with its entries in the order given by `σ` -/
def permV {F : Type} (σ : Equiv.Perm (Fin n)) (v : Vec F n) : Vec F n := fun i => v (σ i)

/-- a square matrix with its rows and columns in the order given by `σ` -/
def permM {F : Type} (σ : Equiv.Perm (Fin n)) (a : Mat F n n) : Mat F n n := fun i j => a (σ i) (σ j)

/-- a matrix with its columns in the order given by `σ` -/
def permC {F : Type} {m : ℕ} (σ : Equiv.Perm (Fin n)) (a : Mat F m n) : Mat F m n := fun i j => a i (σ j)

/-- what an objective returns when it is called with the variables in the order given by `σ`: the same exception, or gradient, Hessian, and sensitivities of residuals in that order -/
inductive PermRet (σ : Equiv.Perm (Fin n)) : Ret Num → Ret Num → Prop
  | raised : PermRet σ .raised .raised
  | hess (f : Num) (g : Vec Num n) (h : Mat Num n n) :
      PermRet σ (.tuple [.scalar f, .ofVec g, .ofMat h]) (.tuple [.scalar f, .ofVec (permV σ g), .ofMat (permM σ h)])
  | grad (f : Num) (g : Vec Num n) : PermRet σ (.tuple [.scalar f, .ofVec g]) (.tuple [.scalar f, .ofVec (permV σ g)])
  | res (m : ℕ) (r : Vec Num m) (s : Mat Num m n) : PermRet σ (.tuple [.ofVec r, .ofMat s]) (.tuple [.ofVec r, .ofMat (permC σ s)])

/-- the argument `hess0` in the order given by `σ` -/
inductive PermHess0 (σ : Equiv.Perm (Fin n)) : Hess0 Num → Hess0 Num → Prop
  | str : PermHess0 σ .hessStr .hessStr
  | none : PermHess0 σ (.val .none) (.val .none)
  | mat (h : Mat Num n n) : PermHess0 σ (.val (.ofMat h)) (.val (.ofMat (permM σ h)))

/-- `E'` is the problem `E` with the variables in the order given by `σ` -/
structure PermutedProblem (σ : Equiv.Perm (Fin n)) (E E' : Env Num n) : Prop where
  lb : E'.lb = permV σ E.lb
  ub : E'.ub = permV σ E.ub
  obj : ∀ k x, PermRet σ (E.obj k x) (E'.obj k (permV σ x))
  opts : E'.opts = E.opts
  nargout : E'.nargout = E.nargout
  resfun : E'.resfun = E.resfun
  clock : E'.clock = E.clock
  evs : ∀ a, E'.evs (permM σ a) = E.evs a
  cond : ∀ a, E'.cond (permM σ a) = E.cond a

/-- an evaluation in the order given by `σ` -/
def permOut (σ : Equiv.Perm (Fin n)) (fo : Funout Num n) : Funout Num n :=
  { fo with x := permV σ fo.x, grad := permV σ fo.grad, hess := fo.hess.map (permM σ), res := fo.res.map fun r => { r with sres := permC σ r.sres } }

/-- an objective call in the order given by `σ` -/
def permEval (σ : Equiv.Perm (Fin n)) (r : EvalRec Num n) : EvalRec Num n := { arg := permV σ r.arg, out := r.out.map (permOut σ) }

/-- the matrices of a Hessian approximation in the order given by `σ` -/
def permIter (σ : Equiv.Perm (Fin n)) (h : IterApprox Num n) : IterApprox Num n := { h with hess := permM σ h.hess, diff := permM σ h.diff }
def permHybrid (σ : Equiv.Perm (Fin n)) (h : Hybrid Num n) : Hybrid Num n := { inner := permIter σ h.inner, hess := permM σ h.hess, diff := permM σ h.diff }
def permStruct (σ : Equiv.Perm (Fin n)) (h : Structured Num n) : Structured Num n :=
  { h with A := permM σ h.A, sdiff := permM σ h.sdiff, hess := permM σ h.hess, diff := permM σ h.diff }

/-- a Hessian approximation in the order given by `σ` -/
def permHapp (σ : Equiv.Perm (Fin n)) : Happ Num n → Happ Num n
  | .base h d => .base (permM σ h) (permM σ d)
  | .iter h => .iter (permIter σ h)
  | .hybridFixed k sw h => .hybridFixed k sw (permHybrid σ h)
  | .hybridFraction t sw h => .hybridFraction t sw (permHybrid σ h)
  | .fx t h => .fx t (permHybrid σ h)
  | .ssm h => .ssm (permStruct σ h)
  | .tssm h => .tssm (permStruct σ h)
  | .gnsbfgs t h => .gnsbfgs t (permStruct σ h)

/-- the same state with the variables in the order given by `σ`; values, radius, counters, flags and history are the same -/
def permState (σ : Equiv.Perm (Fin n)) (st : St Num n) : St Num n :=
  { st with x := permV σ st.x, grad := permV σ st.grad, hess := permM σ st.hess, xMin := permV σ st.xMin, gradMin := permV σ st.gradMin,
            happ := st.happ.map (permHapp σ), evals := st.evals.map (permEval σ) }

/-- the data of a trust-region problem in the order given by `σ` -/
def permProb (σ : Equiv.Perm (Fin n)) (P : Prob Num n) : Prob Num n :=
  { P with x := permV σ P.x, sg := permV σ P.sg, hess := permM σ P.hess, scaling := permV σ P.scaling, gDscaling := permV σ P.gDscaling,
           ub := permV σ P.ub, lb := permV σ P.lb }

/-- a step in the order given by `σ` -/
def permStep (σ : Equiv.Perm (Fin n)) (st : Step Num n) : Step Num n :=
  { st with x := permV σ st.x, subspace := st.subspace.map (permV σ), s0 := permV σ st.s0, ss0 := permV σ st.ss0, s := permV σ st.s, ss := permV σ st.ss,
            ogS := permV σ st.ogS, ogSs := permV σ st.ogSs, br := permV σ st.br, iminbr := fun i => st.iminbr (σ i),
            reflIdx := fun i => st.reflIdx (σ i), truncIdx := fun i => st.truncIdx (σ i) }

/-- the external routines `O'`, given a problem in the order `σ`, return what `O` returns, in the order `σ`: least-squares solutions, eigenvectors (in the same order of
eigenvalues), coefficients found by scipy's optimizer for the strategy `refine`.  Routines for problems in subspace coordinates are the same. -/
structure PermutedRoutines (σ : Equiv.Perm (Fin n)) (O O' : Oracles Num) : Prop where
  sub : O'.sub = O.sub
  lstsq : ∀ (a : Mat Num n n) (b : Vec Num n), O'.lstsq (permM σ a) (permV σ b) = (O.lstsq a b).map (permV σ)
  npEig : ∀ a : Mat Num n n, O'.npEig (permM σ a) = (O.npEig a).map fun r => (r.1, r.2.1, fun i j => r.2.2 (σ i) j)
  refine : ∀ P (st : Step Num n), O'.refine (permProb σ P) (permStep σ st) = O.refine P st

end Fides.Spec
