import Verif.Num

/-!
# Specification vocabulary: bound constraints

A bound is a `Num`: a real number, or `-inf`/`+inf` for a missing bound.
-/

namespace Fides.Spec
open Fides.Num

variable {n : ℕ}

/-- `l ≤ x ≤ u` -/
def InBox1 (l u : Num) (x : ℝ) : Prop := le l (fin x) = true ∧ le (fin x) u = true
/-- `l < x < u` -/
def Inside1 (l u : Num) (x : ℝ) : Prop := lt l (fin x) = true ∧ lt (fin x) u = true
/-- every coordinate is within its bounds -/
def InBox (lb ub : Vec Num n) (x : Fin n → ℝ) : Prop := ∀ i, InBox1 (lb i) (ub i) (x i)
/-- every coordinate is strictly within its bounds -/
def Inside (lb ub : Vec Num n) (x : Fin n → ℝ) : Prop := ∀ i, Inside1 (lb i) (ub i) (x i)
/-- a floating point coordinate that is NaN or a number within the bounds -/
def NanOrIn (l u : Num) (v : Num) : Prop := v = nan ∨ ∃ r, v = fin r ∧ InBox1 l u r
/-- every coordinate is NaN or within its bounds -/
def NanOrInBox (lb ub : Vec Num n) (v : Vec Num n) : Prop := ∀ i, NanOrIn (lb i) (ub i) (v i)

/-- the degeneracy margin `1e2 * 2^-52` -/
noncomputable def margin : ℝ := 100 * (1 / 2 ^ 52)

end Fides.Spec
