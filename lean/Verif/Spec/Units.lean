import Verif.Spec.Smooth
import Verif.Spec.Growth
import Verif.Spec.TrustRegion

/-!
# Specification vocabulary: objectives in other units
-/

namespace Fides.Spec
open Fides.Num

variable {n : ℕ}

/-- the problem `f'`, `g'`, `H'` (value, gradient, Hessian) is the problem `f`, `g`, `H`, multiplied by `c` -/
structure Multiplies (c : ℝ) (f : (Fin n → ℝ) → ℝ) (g : (Fin n → ℝ) → Fin n → ℝ) (H : (Fin n → ℝ) → Fin n → Fin n → ℝ)
    (f' : (Fin n → ℝ) → ℝ) (g' : (Fin n → ℝ) → Fin n → ℝ) (H' : (Fin n → ℝ) → Fin n → Fin n → ℝ) : Prop where
  value : ∀ x, f' x = c * f x
  grad : ∀ x i, g' x i = c * g x i
  hess : ∀ x i j, H' x i j = c * H x i j

/-- two real numbers, the second is `c` times the first one -/
def NumTimes (c : ℝ) (a a' : Num) : Prop := ∃ r : ℝ, a = fin r ∧ a' = fin (c * r)

/-- the second state of the optimizer is the first one with the objective in other units: value, gradient, Hessian, best value and its gradient are multiplied by `c`; the objective was
called at the same points; all other attributes (current and best point, radius, flags, counters, ...) are the same -/
structure StTimes (c : ℝ) (st st' : St Num n) : Prop where
  fval : NumTimes c st.fval st'.fval
  grad : ∀ i, NumTimes c (st.grad i) (st'.grad i)
  hess : ∀ i j, NumTimes c (st.hess i j) (st'.hess i j)
  fvalMin : NumTimes c st.fvalMin st'.fvalMin
  gradMin : ∀ i, NumTimes c (st.gradMin i) (st'.gradMin i)
  evals : List.Forall₂ (fun e e' => e'.arg = e.arg) st.evals st'.evals
  rest : st' = { st with fval := st'.fval, grad := st'.grad, hess := st'.hess, fvalMin := st'.fvalMin, gradMin := st'.gradMin, evals := st'.evals }

end Fides.Spec
