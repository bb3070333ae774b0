import Verif.Spec.Smooth

/-!
# Specification vocabulary: minima with positive curvature
-/

namespace Fides.Spec
open Fides Fides.Num

variable {n : ℕ}

/-- `xs` is a stationary point of `f`, around which (up to distance `r`) `g` is the gradient and `H` the (symmetric) Hessian of `f`, all curvatures
are at least `m > 0`, and the Hessian is Lipschitz continuous with constant `L` -/
structure CurvedMinimum (r m L : ℝ) (f : (Fin n → ℝ) → ℝ) (g : (Fin n → ℝ) → Fin n → ℝ) (H : (Fin n → ℝ) → Fin n → Fin n → ℝ) (xs : Fin n → ℝ) : Prop where
  m_pos : 0 < m
  L_nonneg : 0 ≤ L
  stationary : g xs = 0
  gradient : ∀ x, rnorm (x - xs) ≤ r → ∀ s, HasDerivAt (fun t : ℝ => f (x + t • s)) (rdot (g x) s) 0
  hessian : ∀ x, rnorm (x - xs) ≤ r → ∀ s i, HasDerivAt (fun t : ℝ => g (x + t • s) i) (rmv (H x) s i) 0
  symmetric : ∀ x, rnorm (x - xs) ≤ r → Sym (H x)
  curved : ∀ x, rnorm (x - xs) ≤ r → ∀ v, m * rdot v v ≤ rdot v (rmv (H x) v)
  lipschitz : ∀ x y, rnorm (x - xs) ≤ r → rnorm (y - xs) ≤ r → ∀ v, rnorm (rmv (H y) v - rmv (H x) v) ≤ L * rnorm (y - x) * rnorm v

/-- `R` is small enough for the region `Basin` to be one in which Newton's method converges: its triple is within the distance up to which the assumptions of
`CurvedMinimum` hold, and the Hessian changes within it by little compared with the least curvature `m` and the threshold `eta` -/
structure BasinSize (r m L eta R : ℝ) : Prop where
  pos : 0 < R
  inside : 3 * R ≤ r
  newton : L * R ≤ m / 2
  ratio : L * R ≤ 2 * m * (1 - eta)

/-- the component around `xs` of the points at which the objective exceeds the minimum by at most `m R² / 2` -/
def Basin (r m R : ℝ) (f : (Fin n → ℝ) → ℝ) (xs x : Fin n → ℝ) : Prop := rnorm (x - xs) ≤ r ∧ f x - f xs ≤ m / 2 * (R * R)

end Fides.Spec
