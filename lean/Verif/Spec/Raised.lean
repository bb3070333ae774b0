import Verif.Spec.Run
import Verif.Num

/-!
# Specification vocabulary: objectives that differ by a constant
-/

namespace Fides.Spec
open Fides Fides.Num
variable {n : ℕ}

/-- the value returned by the objective, plus `c`; what is not a number stays as it is -/
noncomputable def raisedVal (c : ℝ) : PyVal Num → PyVal Num
  | .scalar f => .scalar (f + fin c)
  | v => v

/-- what the objective plus the constant `c` returns: `c` is added to the first component of the tuple -/
noncomputable def raisedRet (c : ℝ) : Ret Num → Ret Num
  | .tuple (f :: rest) => .tuple (raisedVal c f :: rest)
  | r => r

/-- `E'` is the problem `E` with the constant `c` added to the objective -/
structure RaisedProblem (c : ℝ) (E E' : Env Num n) : Prop where
  obj : ∀ k x, E'.obj k x = raisedRet c (E.obj k x)
  lb : E'.lb = E.lb
  ub : E'.ub = E.ub
  opts : E'.opts = E.opts
  nargout : E'.nargout = E.nargout
  resfun : E'.resfun = E.resfun
  clock : E'.clock = E.clock
  tr : E'.tr = E.tr
  evs : E'.evs = E.evs
  cond : E'.cond = E.cond

/-- the same evaluation with value increased by `c` -/
noncomputable def raisedOut (c : ℝ) (fo : Funout Num n) : Funout Num n := { fo with fval := fo.fval + fin c }

/-- the same objective call with value increased by `c` -/
noncomputable def raisedEval (c : ℝ) (r : EvalRec Num n) : EvalRec Num n := { r with out := r.out.map (raisedOut c) }

/-- a history entry, increased by `c` -/
noncomputable def raisedEntry (c : ℝ) : HVal Num → HVal Num
  | .num v => .num (v + fin c)
  | v => v

/-- the same history with the entries of "fval" increased by `c` -/
noncomputable def raisedHist (c : ℝ) (h : History Num) : History Num :=
  h.map fun e => if e.1 = "fval" then (e.1, e.2.map (raisedEntry c)) else e

/-- the same state with all objective values increased by `c`: current value, smallest value, values of past objective calls, and those recorded in the history
and the history file.  Points, gradients, Hessians, radius, counters and flags are the same. -/
noncomputable def raisedState (c : ℝ) (st : St Num n) : St Num n :=
  { st with fval := st.fval + fin c, fvalMin := st.fvalMin + fin c, evals := st.evals.map (raisedEval c), history := raisedHist c st.history,
            file := st.file.map fun g => (g.1, raisedHist c g.2) }

end Fides.Spec
