import Verif.Spec.Smooth

/-!
# Specification vocabulary: models with positive definite Hessians and no lower bound of the curvature
-/

namespace Fides.Spec

/-- lower bound for the trust radius as long as the gradient is at least `eps` long; `M` bounds the second derivatives of the models, `L` is the Lipschitz constant of the gradient -/
noncomputable def definiteFloor (mu g1 D0 L M eps : ℝ) : ℝ := min D0 (min g1 (1 / 4) * min (eps / (2 * M)) ((1 - mu) * eps / L))

/-- lower bound for the reduction of the objective by a successful step -/
noncomputable def definiteReduction (mu g1 D0 L M eps : ℝ) : ℝ := mu * (eps / 2 * min (definiteFloor mu g1 D0 L M eps) (eps / (2 * M)))

/-- number of iterations within which a run meets a gradient shorter than `eps` -/
noncomputable def definiteBound (mu g1 g2 D0 L M gap eps : ℝ) : ℕ :=
  passBound g1 g2 D0 gap (definiteFloor mu g1 D0 L M eps) (definiteReduction mu g1 D0 L M eps)

end Fides.Spec
