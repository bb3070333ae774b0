import Verif.Spec.Box

/-!
# Specification vocabulary: where a ray leaves the box
-/

namespace Fides.Spec
open Fides.Num

variable {n : ℕ}

/-- `T` is the largest multiple of `s` that can be added to `x` without leaving the box -/
def Leaves (lb ub : Vec Num n) (x s : Fin n → ℝ) (T : ℝ) : Prop :=
  0 ≤ T ∧ ∀ t : ℝ, 0 ≤ t → (InBox lb ub (x + t • s) ↔ t ≤ T)

/-- at `x + T * s` coordinate `i` sits on the bound it moves towards -/
def Blocked (lb ub : Vec Num n) (x s : Fin n → ℝ) (T : ℝ) (i : Fin n) : Prop :=
  (0 < s i ∧ ub i = fin (x i + T * s i)) ∨ (s i < 0 ∧ lb i = fin (x i + T * s i))

open Classical in
/-- the direction `s` with the sign reversed in exactly the blocked coordinates -/
noncomputable def reversed (lb ub : Vec Num n) (x s : Fin n → ℝ) (T : ℝ) (v : Fin n → ℝ) : Fin n → ℝ :=
  fun i => if Blocked lb ub x s T i then -v i else v i

end Fides.Spec
