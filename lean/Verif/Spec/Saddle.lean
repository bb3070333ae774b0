import Verif.Spec.Smooth

/-!
# Specification vocabulary: stationary points that are not minima
-/

namespace Fides.Spec
open Fides Fides.Num

variable {n : ℕ}

/-- the gradient vanishes at `x0`; there is a direction along which the curvature of the objective is at most `-nu` (so `x0` is not a local minimum);
curvatures are at most `M` in magnitude; and within the distance `R` the objective is at most its second order expansion plus `K` times the cube of the
distance (it is, if third derivatives are at most `6 K`) -/
structure NotMinimum (f : (Fin n → ℝ) → ℝ) (g : (Fin n → ℝ) → Fin n → ℝ) (H : (Fin n → ℝ) → Fin n → Fin n → ℝ) (x0 : Fin n → ℝ) (nu M K R : ℝ) : Prop where
  stationary : g x0 = 0
  sym : Sym (H x0)
  nu_pos : 0 < nu
  negative : ∃ c, rdot c c = 1 ∧ rdot c (rmv (H x0) c) ≤ -nu
  bounded : ∀ w, |rdot w (rmv (H x0) w)| ≤ M * rdot w w
  cubic : ∀ s, rnorm s ≤ R → f (x0 + s) ≤ f x0 + rdot s (rmv (H x0) s) / 2 + K * rnorm s ^ 3

end Fides.Spec
