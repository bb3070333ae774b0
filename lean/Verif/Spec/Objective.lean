import Verif.Spec.Box
import Verif.Spec.Run
import Verif.Spec.Linear

/-!
# Specification vocabulary: objectives that behave well
-/

namespace Fides.Spec
open Fides Fides.Num
variable {n : ℕ}

/-- the objective handed to the optimizer is used without residuals and without Hessian approximation, and it behaves well: at every point of the box each call returns a
value, a gradient and a Hessian of the right shapes; where the value is finite, gradient and Hessian are finite, and the Hessian is symmetric (elsewhere they may be
anything); an argument with a NaN entry gives a value that is not finite -/
structure CleanObjective (E : Env Num n) : Prop where
  nargout : E.nargout = 3
  resfun : E.resfun = false
  obj : ∀ k (v : Vec Num n), NanOrInBox E.lb E.ub v → ∃ (fv : Num) (gr : Vec Num n) (he : Mat Num n n),
    E.obj k v = .tuple [.scalar fv, .ofVec gr, .ofMat he] ∧
    (isFinite fv = true → (∀ i, v i ≠ nan) ∧ (∃ g, gr = ofV g) ∧ ∃ B, he = ofM B ∧ Sym B)

/-- the same without Hessians: value and gradient at every point of the box, the gradient finite where the value is -/
structure CleanGradients (E : Env Num n) : Prop where
  nargout : E.nargout = 2
  resfun : E.resfun = false
  obj : ∀ k (v : Vec Num n), NanOrInBox E.lb E.ub v → ∃ (fv : Num) (gr : Vec Num n), E.obj k v = .tuple [.scalar fv, .ofVec gr] ∧
    (isFinite fv = true → (∀ i, v i ≠ nan) ∧ ∃ g, gr = ofV g)

/-- the Hessian approximations that keep their matrices finite: `BFGS()`, `DFP()`, `Broyden(phi)` with `phi ≥ 0` and the curvature condition enforced (the default), and
the hybrid approximations that switch between one of these and the Hessian of the objective -/
inductive SafeUpdate : Happ Num n → Prop
  | iter (a : IterApprox Num n) (phi : ℝ) (h0 : 0 ≤ phi) (h1 : a.scheme = .broyden (fin phi) true) : SafeUpdate (.iter a)
  | fixed (k : Int) (sw : Bool) (h : Hybrid Num n) (phi : ℝ) (h0 : 0 ≤ phi) (h1 : h.inner.scheme = .broyden (fin phi) true) : SafeUpdate (.hybridFixed k sw h)
  | fraction (t : Num) (sw : Bool) (h : Hybrid Num n) (phi : ℝ) (h0 : 0 ≤ phi) (h1 : h.inner.scheme = .broyden (fin phi) true) : SafeUpdate (.hybridFraction t sw h)

/-- the first call of the objective, at the starting point or within `margin` of it, returns a finite value -/
def FiniteStart (E : Env Num n) (k : ℕ) (r0 : Fin n → ℝ) : Prop :=
  ∀ z, InBox E.lb E.ub z → (∀ i, |z i - r0 i| ≤ margin) → ∃ (v : ℝ) (rest : List (PyVal Num)), E.obj k (ofV z) = .tuple (.scalar (fin v) :: rest)

/-- the trust-region options are numbers, and `theta_max` is between 0 and 1 -/
structure RealParams (E : Env Num n) : Prop where
  gamma1 : ∃ r : ℝ, E.opts.gamma1 = fin r
  gamma2 : ∃ r : ℝ, E.opts.gamma2 = fin r
  deltaInit : ∃ r : ℝ, E.opts.deltaInit = fin r
  thetaMax : ∃ r : ℝ, E.opts.thetaMax = fin r ∧ 0 < r ∧ r ≤ 1

end Fides.Spec
