import Verif.Spec.Linear

/-!
# Specification vocabulary: quadratic objectives
-/

namespace Fides.Spec
open Fides Fides.Num

variable {n : ℕ}

/-- the quadratic function `c + b·x + x·Ax/2` -/
noncomputable def quadF (c : ℝ) (b : Fin n → ℝ) (A : Fin n → Fin n → ℝ) (x : Fin n → ℝ) : ℝ := c + rdot b x + rdot x (rmv A x) / 2

/-- its gradient `b + Ax` (for symmetric `A`) -/
noncomputable def quadG (b : Fin n → ℝ) (A : Fin n → Fin n → ℝ) (x : Fin n → ℝ) : Fin n → ℝ := b + rmv A x

end Fides.Spec
