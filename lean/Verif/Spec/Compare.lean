import Verif.Spec.Proposal
import Verif.Spec.TrustRegion

/-!
# Specification vocabulary: the proposals of the three solvers on a problem without bounds
-/

namespace Fides.Spec
open Fides.Num

variable {n : ℕ}

/-- the arguments of `trust_region` on a problem without bounds: position `x`, gradient `g`, symmetric Hessian `B`, radius `D`, and the trivial scaling
(every variable has scaling 1 and Jacobian term 0) -/
structure PlainInput (I : TRIn Num n) (x g : Fin n → ℝ) (B : Fin n → Fin n → ℝ) (D : ℝ) : Prop where
  x : I.x = ofV x
  g : I.g = ofV g
  hess : I.hess = ofM B
  sym : Sym B
  radius : I.delta = fin D
  positive : 0 < D
  scaling : ∀ i, I.scaling i = fin 1
  dv : ∀ i, I.dv i = fin 0
  theta : ∃ th : ℝ, I.theta = fin th ∧ 0 < th ∧ th ≤ 1
  lower : ∀ i, I.lb i = ninf
  upper : ∀ i, I.ub i = pinf

/-- the returned step moves `x` by `p`, records the same displacement as scaled step (used for the update of the radius), and predicts the change `g·p + p·B·p/2` of the objective -/
structure Proposes1 (step : Step Num n) (x g : Fin n → ℝ) (B : Fin n → Fin n → ℝ) (p : Fin n → ℝ) : Prop where
  moves : vadd (vadd (ofV x) step.s) step.s0 = ofV (x + p)
  scaled : vadd step.ss step.ss0 = ofV p
  predicts : step.qpval = fin (quad B g p)

/-- the precision of the solver's test whether a step is within the radius: the square root of `np.spacing(1)`, `2⁻²⁶` -/
noncomputable def ballTol : ℝ := 1 / 67108864

end Fides.Spec
