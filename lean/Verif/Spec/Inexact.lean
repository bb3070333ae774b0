import Verif.Spec.Convex

/-!
# Specification vocabulary: regions of superlinear convergence of the truncated-CG solver
-/

namespace Fides.Spec

/-- `R` is small enough for the region `Basin` to be one in which every step of the truncated-CG solver is accepted: `r` is the distance up to which the assumptions of `CurvedMinimum`
hold, `m` and `M` are the bounds of the curvatures, `L` is the Lipschitz constant of the Hessian -/
structure InexactSize (r m M L eta R : ℝ) : Prop where
  pos : 0 < R
  inside : (1 + M / m) * R ≤ r
  ratio : L * (M * R) ≤ 3 * (m * m) * (1 - eta)

/-- the constant of the superlinear rate -/
noncomputable def rateConst (m L : ℝ) : ℝ := 1 + L / (4 * (m * m))

end Fides.Spec
