import Verif.Spec.Bounded
import Verif.Spec.Growth

/-!
# Specification vocabulary: convex problems with two bounds for every variable
-/

namespace Fides.Spec
open Fides Fides.Num
variable {n : ℕ}

/-- every variable has a finite lower and a finite upper bound, at most `W` apart -/
def TwoBounds (W : ℝ) (lb ub : Vec Num n) : Prop := ∀ i, ∃ l u : ℝ, lb i = fin l ∧ ub i = fin u ∧ u - l ≤ W

/-- in the box, `f` lies above its tangents, by at least `m / 2` times the squared distance: `f` is convex (`m = 0`) or strongly convex (`m > 0`) with gradient `g` -/
def ConvexIn (m : ℝ) (lb ub : Vec Num n) (f : (Fin n → ℝ) → ℝ) (g : (Fin n → ℝ) → Fin n → ℝ) : Prop :=
  ∀ x y, InBox lb ub x → InBox lb ub y → f x + rdot (g x) (y - x) + m / 2 * rdot (y - x) (y - x) ≤ f y

/-- `xs` minimizes `f` in the box -/
def MinimizerIn (lb ub : Vec Num n) (f : (Fin n → ℝ) → ℝ) (xs : Fin n → ℝ) : Prop := InBox lb ub xs ∧ ∀ y, InBox lb ub y → f xs ≤ f y

/-- how far the value at a point next to one at which the optimality measure is below `eps` may be from the minimum.  The second term is due to the margin by which
iterates are moved off the bounds. -/
noncomputable def convexGap (n : ℕ) (W G eps : ℝ) : ℝ := Real.sqrt (n * W) * eps + n * G * margin

/-- the minimum reported in the final state `st` is the value at a point of the box, it is at most `gap` above the minimum of `f` in the box, and the minimizer that is
reported with it is within `margin` of that point -/
def Solved (E : Env Num n) (f : (Fin n → ℝ) → ℝ) (gap : ℝ) (st : St Num n) : Prop :=
  ∃ z x : Fin n → ℝ, InBox E.lb E.ub z ∧ InBox E.lb E.ub x ∧ st.fvalMin = fin (f z) ∧ (∀ y, InBox E.lb E.ub y → f z ≤ f y + gap) ∧
    st.xMin = ofV x ∧ ∀ i, |x i - z i| ≤ margin

end Fides.Spec
