import Verif.Spec.Run

/-!
# Specification vocabulary: calls of the objective and their results
-/

namespace Fides.Spec
open Fides
variable {F : Type} [FloatOps F] {n : ℕ}

/-- how many values the objective must return: 3 (value, gradient, Hessian) without approximation scheme and with the hybrid schemes
that mix the objective's Hessian, else 2 -/
def expectedCount : Option (Happ F n) → ℕ
  | none => 3
  | some (.hybridFixed _ _ _) => 3
  | some (.hybridFraction _ _ _) => 3
  | some (.base _ _) => 2
  | some (.iter _) => 2
  | some (.fx _ _) => 2
  | some (.ssm _) => 2
  | some (.tssm _) => 2
  | some (.gnsbfgs _ _) => 2

/-- the objective returned, but not a tuple of `k` values -/
def WrongCount (k : ℕ) : Ret F → Prop
  | .raised => False
  | .single _ => True
  | .tuple vals => vals.length ≠ k

/-- the calls made by the run that produced `res` from `st0`: `calls` lists them, newest first -/
def CallsOf (st0 : St F n) (res : Except (PyErr × St F n) (St F n)) (calls : List (EvalRec F n)) : Prop :=
  (finalState res).evals = calls ++ st0.evals

end Fides.Spec
