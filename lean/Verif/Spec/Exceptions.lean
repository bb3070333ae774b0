import Verif.Spec.Run

/-!
# Specification vocabulary: runs that end with an exception (C82)
-/

namespace Fides.Spec
open Fides
variable {F : Type} [FloatOps F] {n : ℕ}

/-- the call `r` of the objective is the reason of the exception `e`: the call raised it (or what it returned was refused with it), or it
returned a finite value with derivatives that are not finite (RuntimeError) -/
def FailedWith (e : PyErr) (r : EvalRec F n) : Prop :=
  r.out = .error e ∨ ∃ fo, r.out = .ok fo ∧ isFinite fo.fval = true ∧ ¬ FiniteEval fo ∧ e = .runtimeError

/-- attributes of the optimizer after the evaluations `done` of a run: `x_min`, `fval_min`, `grad_min` are those of the first best
evaluation, `x`, `fval`, `grad` those of one feasible evaluation with finite results (points up to the nudge off the bounds) -/
structure Usable (E : Env F n) (done : List (EvalRec F n)) (st : St F n) : Prop where
  returned : ∀ r ∈ done, ∃ fo, r.out = .ok fo
  best : ∃ b, FirstBest done b ∧ st.fvalMin = b.fval ∧ st.gradMin = b.grad ∧
    (st.xMin = b.x ∨ (inBounds E.lb E.ub b.x = true ∧ st.xMin = nudge E.lb E.ub b.x))
  current : ∃ c, ({ arg := c.x, out := .ok c } : EvalRec F n) ∈ done ∧ FiniteEval c ∧ inBounds E.lb E.ub c.x = true ∧
    st.fval = c.fval ∧ st.grad = c.grad ∧ (st.x = c.x ∨ st.x = nudge E.lb E.ub c.x)

end Fides.Spec
