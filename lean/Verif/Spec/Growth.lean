import Verif.Spec.Smooth

/-!
# Specification vocabulary: model Hessians that grow, convex objectives
-/

namespace Fides.Spec
open Fides Fides.Num
variable {n : ℕ}

/-- `f` lies above its tangents: `f` is convex with gradient `g` -/
def AboveTangents (f : (Fin n → ℝ) → ℝ) (g : (Fin n → ℝ) → Fin n → ℝ) : Prop := ∀ x y, f x + rdot (g x) (y - x) ≤ f y

/-- every call of the objective at a real vector `x` returns the tuple `(f x, g x)`, without Hessian -/
structure ReturnsGrad (E : Env Num n) (f : (Fin n → ℝ) → ℝ) (g : (Fin n → ℝ) → Fin n → ℝ) : Prop where
  nargout : E.nargout = 2
  resfun : E.resfun = false
  obj : ∀ k x, E.obj k (ofV x) = .tuple [.scalar (fin (f x)), .ofVec (ofV (g x))]

/-- as long as the gradient is at least `eps` long, the trust radius times the bound of the model Hessian stays above this number; `m0` is the bound at the start, `L` the Lipschitz
constant of the gradient -/
noncomputable def growthFloor (mu g1 D0 L m0 eps : ℝ) : ℝ := min (D0 * m0) (min g1 (1 / 4) * (eps * (1 - mu) * m0 / (L + m0)))

/-- an upper bound of `log (1 / g1) * (1 / M 1 + ... + 1 / M k)` for a run of `k` iterations with gradients at least `eps` long, where the model Hessian in iteration `j` is bounded by
`M j`; `gap` is the distance of the initial value to a lower bound of the objective -/
noncomputable def growthReserve (mu g1 g2 D0 L m0 gap eps : ℝ) : ℝ :=
  (Real.log (1 / g1) + Real.log g2) / (mu * eps * growthFloor mu g1 D0 L m0 eps / 2) * gap + (Real.log (D0 * m0 / growthFloor mu g1 D0 L m0 eps) + 1) / m0

/-- number of iterations within which a run meets a gradient shorter than `eps` if the model Hessian in iteration `j` is bounded by `m0 + b * j` -/
noncomputable def growthBound (mu g1 g2 D0 L m0 b gap eps : ℝ) : ℕ :=
  ⌊(m0 + b) / b * Real.exp (b * growthReserve mu g1 g2 D0 L m0 gap eps / Real.log (1 / g1))⌋₊

end Fides.Spec
