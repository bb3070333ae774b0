import Verif.Spec.Run
import Verif.Spec.Linear

/-!
# Specification vocabulary: least-squares problems
-/

namespace Fides.Spec
open Fides Fides.Num
variable {n : ℕ}

/-- the objective is used in residual mode and returns, at every real point, the residuals `r` and their derivative `J` -/
structure ReturnsResiduals {m : ℕ} (E : Env Num n) (r : (Fin n → ℝ) → Fin m → ℝ) (J : (Fin n → ℝ) → Fin m → Fin n → ℝ) : Prop where
  resfun : E.resfun = true
  nargout : E.nargout = 2
  obj : ∀ k x, E.obj k (ofV x) = .tuple [.ofVec (ofV (r x)), .ofMat (ofM (J x))]

/-- the Gauss-Newton matrix `Jᵀ J` -/
def gaussNewton {m : ℕ} (J : Fin m → Fin n → ℝ) (i j : Fin n) : ℝ := ∑ l, J l i * J l j

/-- the gradient `Jᵀ r` -/
def jacT {m : ℕ} (J : Fin m → Fin n → ℝ) (r : Fin m → ℝ) (i : Fin n) : ℝ := ∑ l, J l i * r l

end Fides.Spec
