import Verif.Spec.Run

/-!
# Specification vocabulary: the recorded history
-/

namespace Fides

/-- the same surroundings with another value of the option `history_file` -/
def Env.recording {F : Type} [FloatOps F] {n : ℕ} (E : Env F n) (b : Bool) : Env F n :=
  { E with opts := { E.opts with history := b } }

end Fides

namespace Fides.Spec
open Fides
variable {F : Type} [FloatOps F] {n : ℕ}

/-- the eigenvalue and condition number routines used only for the history do not raise -/
def Quiet (E : Env F n) : Prop := (∀ m, ∃ v, E.evs m = .ok v) ∧ ∀ m, ∃ v, E.cond m = .ok v

/-- the names of the recorded quantities -/
def recorded : List String :=
  ["fval", "tr_ratio", "tr_radius", "normgrad", "normstep", "theta", "alpha", "reflections", "truncations", "accept",
   "hess_min_ev", "hess_max_ev", "hess_update_min_ev", "hess_update_max_ev", "hess_struct_update_min_ev",
   "hess_struct_update_max_ev", "iterations_since_tr_update", "step_type", "subspace_dim", "posdef", "newton", "cond_hess",
   "cond_shess"]

/-- the list stored under a name (`[]` if there is none) -/
def entries (h : History F) (key : String) : List (HVal F) :=
  match h with
  | [] => []
  | (k, l) :: rest => if k = key then l else entries rest key

/-- a group with exactly one list for every recorded quantity, each with one entry per iteration -/
def Complete (h : History F) (iterations : ℕ) : Prop :=
  (iterations = 0 → h = []) ∧
  (0 < iterations → h.map Prod.fst = recorded ∧ ∀ g ∈ h, g.2.length = iterations)

end Fides.Spec
