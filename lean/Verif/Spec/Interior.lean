import Verif.Spec.Local
import Verif.Spec.Box

/-!
# Specification vocabulary: minima in the interior of the box
-/

namespace Fides.Spec
open Fides Fides.Num

variable {n : ℕ}

/-- every coordinate of `xs` is at least `w` away from its bounds -/
def AwayFromBounds (w : ℝ) (lb ub : Vec Num n) (xs : Fin n → ℝ) : Prop :=
  ∀ i, InBox1 (lb i) (ub i) (xs i - w) ∧ InBox1 (lb i) (ub i) (xs i + w)

/-- the constant of quadratic convergence near a minimum whose distance to the bounds is `w`: curvatures are between `m` and `M`, the Hessian has Lipschitz
constant `L`.  The second term is due to the bounds. -/
noncomputable def interiorRate (m M L w : ℝ) : ℝ := (L + 5 * M / w) / m

/-- `R` is a distance from the minimum within which Newton's method in the scaled variables converges: the assumptions of `CurvedMinimum` hold up to
`3 R`, the rate gives at least a bisection, the model's error is small compared with the curvature, and the steps stay away from the bounds (`thetaMax` is `tm`) -/
structure InteriorSize (r m M L w tm eta R : ℝ) : Prop where
  pos : 0 < R
  inside : 3 * R ≤ r
  w_pos : 0 < w
  w_le : w ≤ 1
  margin_le : 4 * margin ≤ w
  room : 2 * R ≤ tm * w
  newton : interiorRate m M L w * R ≤ 1 / 2
  ratio : interiorRate m M L w * R ≤ 2 * (1 - eta)

end Fides.Spec
