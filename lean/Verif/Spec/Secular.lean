import Verif.Model.Subproblem
import Verif.Num

/-!
# Specification vocabulary: root finding (C81)
-/

namespace Fides.Spec
open Fides.Num

/-- Newton's method for a root of `f` with derivative `f'`, started at `x`: the iterates -/
def newtonSeq {F : Type} [FloatOps F] (f f' : F → F) (x : F) : ℕ → F
  | 0 => x
  | k + 1 => newtonSeq f f' x k - f (newtonSeq f f' x k) / f' (newtonSeq f f' x k)

/-- idealised root finders: `newton` returns a root to the right of its start or gives up with RuntimeError; `brentq`, given an
interval with a change of sign that contains a root, returns a root in this interval -/
structure RootFinders (O : SubOracles Num) : Prop where
  newton : ∀ f (a : ℝ) f', (∃ q : ℝ, O.newton f (fin a) f' = .ok (fin q) ∧ a ≤ q ∧ f (fin q) = fin 0) ∨
    O.newton f (fin a) f' = .error .runtimeError
  brentq : ∀ f (a b : ℝ) m, 0 < m → lt (f (fin a)) (fin 0) = true → le (fin 0) (f (fin b)) = true →
    (∃ q : ℝ, a ≤ q ∧ q ≤ b ∧ f (fin q) = fin 0) →
    ∃ q : ℝ, O.brentq f (fin a) (fin b) m = .ok (fin q) ∧ a ≤ q ∧ q ≤ b ∧ f (fin q) = fin 0

end Fides.Spec
