import Verif.Spec.Linear

/-!
# Specification vocabulary: trust-region subproblems
-/

namespace Fides.Spec
open Fides.Num

variable {n : ℕ}

/-- `s` minimises the quadratic model `g·s + s·B·s/2` over the ball of radius `delta` (it may itself leave the ball
by the numerical tolerance of the solver) -/
def MinOverBall (B : Fin n → Fin n → ℝ) (g : Fin n → ℝ) (delta : ℝ) (s : Fin n → ℝ) : Prop :=
  ∀ p : Fin n → ℝ, rnorm p ≤ delta → quad B g s ≤ quad B g p

/-- columns of `vecs` are orthonormal -/
def OrthoCols (vecs : Fin n → Fin n → ℝ) : Prop :=
  ∀ a b, rdot (fun i => vecs i a) (fun i => vecs i b) = if a = b then 1 else 0

/-- `vals`, `vecs` is an orthonormal eigendecomposition of `B` -/
def IsEig (B : Fin n → Fin n → ℝ) (vals : Fin n → ℝ) (vecs : Fin n → Fin n → ℝ) : Prop :=
  OrthoCols vecs ∧ ∀ j, rmv B (fun i => vecs i j) = vals j • (fun i => vecs i j)

end Fides.Spec
