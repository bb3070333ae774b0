import Verif.Spec.Run
import Verif.Num

/-!
# Specification vocabulary: translated problems
-/

namespace Fides.Spec
open Fides Fides.Num
variable {n : ℕ}

/-- the point `x + c` -/
noncomputable def moved (c : Fin n → ℝ) (x : Vec Num n) : Vec Num n := fun i => x i + fin (c i)

/-- the same evaluation, at the translated point -/
noncomputable def movedOut (c : Fin n → ℝ) (fo : Funout Num n) : Funout Num n := { fo with x := moved c fo.x }

/-- the same objective call, at the translated point -/
noncomputable def movedEval (c : Fin n → ℝ) (r : EvalRec Num n) : EvalRec Num n := { arg := moved c r.arg, out := r.out.map (movedOut c) }

/-- the same state with all points translated: current point, best point and arguments of objective calls; values, gradients, Hessians, radius, counters,
flags and history are the same -/
noncomputable def movedState (c : Fin n → ℝ) (st : St Num n) : St Num n :=
  { st with x := moved c st.x, xMin := moved c st.xMin, evals := st.evals.map (movedEval c) }

/-- `E'` is the problem `E` in translated coordinates: bounds are moved by `c`, the objective called at `x + c` returns what that of `E` returns at
`x`; options, clock, and the routines used to solve subproblems are the same -/
structure TranslatedProblem (c : Fin n → ℝ) (E E' : Env Num n) : Prop where
  lb : E'.lb = moved c E.lb
  ub : E'.ub = moved c E.ub
  obj : ∀ k x, E'.obj k (moved c x) = E.obj k x
  opts : E'.opts = E.opts
  nargout : E'.nargout = E.nargout
  resfun : E'.resfun = E.resfun
  clock : E'.clock = E.clock
  evs : E'.evs = E.evs
  cond : E'.cond = E.cond

/-- what scipy's optimizer returns to the strategy `refine` does not depend on where the origin is (it is called with a function and constraints that do not) -/
def RefineInvariant (O : Oracles Num) : Prop :=
  ∀ (n : ℕ) (c : Fin n → ℝ) (P : Prob Num n) (st : Step Num n),
    O.refine { P with x := moved c P.x, lb := moved c P.lb, ub := moved c P.ub } { st with x := moved c st.x } = O.refine P st

end Fides.Spec
