import Verif.Spec.Box

/-!
# Specification vocabulary: first-order optimality under bounds
-/

namespace Fides.Spec
open Fides.Num

variable {n : ℕ}

/-- first-order optimality of the feasible point `x` with gradient `g`: no feasible point is downhill to first order -/
def Stationary (lb ub : Vec Num n) (x g : Fin n → ℝ) : Prop := ∀ y : Fin n → ℝ, InBox lb ub y → 0 ≤ rdot g (y - x)

/-- the Karush-Kuhn-Tucker conditions of the bound-constrained problem, coordinate by coordinate: the derivative vanishes, or
it pushes against a bound the coordinate sits at -/
def KKT (lb ub : Vec Num n) (x g : Fin n → ℝ) : Prop :=
  ∀ i, g i = 0 ∨ (0 < g i ∧ lb i = fin (x i)) ∨ (g i < 0 ∧ ub i = fin (x i))

end Fides.Spec
