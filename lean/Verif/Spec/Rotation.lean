import Verif.Spec.Smooth
import Verif.Spec.Growth
import Verif.Spec.TrustRegion

/-!
# Specification vocabulary: rotated problems
-/

namespace Fides.Spec
open Fides.Num

variable {n : ℕ}

/-- the problem `f'`, `g'`, `H'` is the problem `f`, `g`, `H` (value, gradient, Hessian) in the coordinates `y = Q x` -/
structure Rotates (Q : Fin n → Fin n → ℝ) (f : (Fin n → ℝ) → ℝ) (g : (Fin n → ℝ) → Fin n → ℝ) (H : (Fin n → ℝ) → Fin n → Fin n → ℝ)
    (f' : (Fin n → ℝ) → ℝ) (g' : (Fin n → ℝ) → Fin n → ℝ) (H' : (Fin n → ℝ) → Fin n → Fin n → ℝ) : Prop where
  value : ∀ x, f' (rmv Q x) = f x
  grad : ∀ x, g' (rmv Q x) = rmv Q (g x)
  hess : ∀ x v, rmv (H' (rmv Q x)) (rmv Q v) = rmv Q (rmv (H x) v)

/-- two vectors of real numbers, the second is the first one in the coordinates `Q x` -/
def VecRot (Q : Fin n → Fin n → ℝ) (u u' : Vec Num n) : Prop := ∃ r, u = ofV r ∧ u' = ofV (rmv Q r)

/-- two matrices of real numbers, the second is the first one in the coordinates `Q x` -/
def MatRot (Q : Fin n → Fin n → ℝ) (M M' : Mat Num n n) : Prop :=
  ∃ B B', M = ofM B ∧ M' = ofM B' ∧ ∀ v, rmv B' (rmv Q v) = rmv Q (rmv B v)

/-- the second state of the optimizer is the first one in the coordinates `Q x`: point, gradient, Hessian, best point, its gradient and all points at which the objective was called
are transformed, all other attributes (values, radius, flags, counters, ...) are the same -/
structure StRot (Q : Fin n → Fin n → ℝ) (st st' : St Num n) : Prop where
  x : VecRot Q st.x st'.x
  grad : VecRot Q st.grad st'.grad
  hess : MatRot Q st.hess st'.hess
  xMin : VecRot Q st.xMin st'.xMin
  gradMin : VecRot Q st.gradMin st'.gradMin
  evals : List.Forall₂ (fun e e' => VecRot Q e.arg e'.arg) st.evals st'.evals
  rest : st' = { st with x := st'.x, grad := st'.grad, hess := st'.hess, xMin := st'.xMin, gradMin := st'.gradMin, evals := st'.evals }

/-- two quasi-Newton approximations with the same update formula, the second one in the coordinates `Q x` -/
structure IterRot (Q : Fin n → Fin n → ℝ) (h h' : IterApprox Num n) : Prop where
  scheme : h'.scheme = h.scheme
  hess : MatRot Q h.hess h'.hess
  diff : MatRot Q h.diff h'.diff

/-- the same as `StRot` for optimizers with a quasi-Newton approximation, which is transformed too -/
structure QuasiRot (Q : Fin n → Fin n → ℝ) (st st' : St Num n) : Prop where
  x : VecRot Q st.x st'.x
  grad : VecRot Q st.grad st'.grad
  hess : MatRot Q st.hess st'.hess
  xMin : VecRot Q st.xMin st'.xMin
  gradMin : VecRot Q st.gradMin st'.gradMin
  evals : List.Forall₂ (fun e e' => VecRot Q e.arg e'.arg) st.evals st'.evals
  happ : ∃ h h', st.happ = some (.iter h) ∧ st'.happ = some (.iter h') ∧ IterRot Q h h'
  rest : st' = { st with x := st'.x, grad := st'.grad, hess := st'.hess, xMin := st'.xMin, gradMin := st'.gradMin, evals := st'.evals, happ := st'.happ }

end Fides.Spec
