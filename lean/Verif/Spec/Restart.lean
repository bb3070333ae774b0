import Verif.Spec.Run

/-!
# Specification vocabulary: two optimizers for one problem
-/

namespace Fides.Spec
open Fides
variable {F : Type} [FloatOps F] {n : ℕ}

/-- two optimizers for one problem: same bounds, and whenever both can make sense of what the objective returns at a point, it is the same value.  Options, solvers, Hessian
approximations, and hence the number of values the objective returns, may differ. -/
structure SameProblem (E E' : Env F n) : Prop where
  lb : E'.lb = E.lb
  ub : E'.ub = E.ub
  value : ∀ k k' x raw raw', funEval E.nargout E.resfun (E.obj k x) = .ok raw → funEval E'.nargout E'.resfun (E'.obj k' x) = .ok raw' → raw'.fval = raw.fval

/-- no coordinate of `x` is closer than `1e2 * 2^-52` to its bounds -/
def Away (lb ub x : Vec F n) : Prop :=
  ∀ i, lt (ub i - x i) (lit 100 * lit (1 / 4503599627370496)) = false ∧ lt (x i - lb i) (lit 100 * lit (1 / 4503599627370496)) = false

end Fides.Spec
