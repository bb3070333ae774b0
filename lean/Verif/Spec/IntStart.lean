import Verif.Binary64
import Verif.Model.Minimize

/-!
# Specification: integers as floats, and where an integer starting point ends up
-/

namespace Fides.Spec
variable {n : ℕ}

/-- the part of a real number before the decimal point -/
noncomputable def towardZero (r : ℝ) : ℤ := if 0 ≤ r then ⌊r⌋ else ⌈r⌉

/-- the conversion of floats to integers discards the fractional part -/
def Truncates {R : Rounding} (cast : Dbl R → Dbl R) : Prop := ∀ a r, a.val = .fin r → cast a = lit (towardZero r : ℚ)

/-- the integer `z`, when an upper or a lower bound is closer than `1e2 * 2^-52`: a unit toward zero if the bound is on the other side and `z` is not
larger than 256 in magnitude, otherwise nothing happens -/
def movedInt (upper lower : Bool) (z : ℤ) : ℤ :=
  if upper ∧ 1 ≤ z ∧ z ≤ 256 then z - 1 else if lower ∧ -256 ≤ z ∧ z ≤ -1 then z + 1 else z

/-- the vector `z`, as floats, lies within the bounds -/
def IntFeasible {R : Rounding} (lb ub : Vec (Dbl R) n) (z : Fin n → ℤ) : Prop :=
  ∀ i, |z i| < 2 ^ 53 ∧ le (lb i) (lit (z i : ℚ)) = true ∧ le (lit (z i : ℚ)) (ub i) = true

end Fides.Spec
