import Verif.Spec.Local

/-!
# Specification vocabulary: strongly convex objectives
-/

namespace Fides.Spec
open Fides Fides.Num
variable {n : ℕ}

/-- `g` is everywhere the gradient and `H` the (symmetric) Hessian of `f`, all curvatures are between `m > 0` and `M`, and the Hessian is Lipschitz continuous with constant `L` -/
structure StronglyConvex (m M L : ℝ) (f : (Fin n → ℝ) → ℝ) (g : (Fin n → ℝ) → Fin n → ℝ) (H : (Fin n → ℝ) → Fin n → Fin n → ℝ) : Prop where
  m_pos : 0 < m
  m_le : m ≤ M
  L_nonneg : 0 ≤ L
  gradient : ∀ x s, HasDerivAt (fun t : ℝ => f (x + t • s)) (rdot (g x) s) 0
  hessian : ∀ x s i, HasDerivAt (fun t : ℝ => g (x + t • s) i) (rmv (H x) s i) 0
  symmetric : ∀ x, Sym (H x)
  lower : ∀ x v, m * rdot v v ≤ rdot v (rmv (H x) v)
  upper : ∀ x v, rdot v (rmv (H x) v) ≤ M * rdot v v
  lipschitz : ∀ x y v, rnorm (rmv (H y) v - rmv (H x) v) ≤ L * rnorm (y - x) * rnorm v

end Fides.Spec
