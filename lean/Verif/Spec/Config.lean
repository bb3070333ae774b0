import Verif.Model.Funeval
import Verif.Num

/-!
# Specification vocabulary: options and shapes
-/

namespace Fides.Spec
open Fides

/-- the documented name of each option -/
def docName : OptKey → String
  | .maxiter => "maxiter"
  | .maxtime => "maxtime"
  | .fatol => "fatol"
  | .frtol => "frtol"
  | .xtol => "xtol"
  | .gatol => "gatol"
  | .grtol => "grtol"
  | .subspaceDim => "subspace_solver"
  | .stepbackStrat => "stepback_strategy"
  | .thetaMax => "theta_max"
  | .deltaInit => "delta_init"
  | .mu => "mu"
  | .eta => "eta"
  | .gamma1 => "gamma1"
  | .gamma2 => "gamma2"
  | .historyFile => "history_file"

/-- the key of an options dict names the option: the enum member or its documented name -/
def Names : RawKey → OptKey → Prop
  | .member k', k => k' = k
  | .str s, k => s = docName k
  | .other, _ => False

/-- the values documented for each option -/
def Documented : OptKey → RawVal → Prop
  | .maxiter, v => (∃ z : ℤ, v = .int z) ∨ ∃ z : ℤ, v = .real z
  | .subspaceDim, v => v = .subspace .two ∨ v = .subspace .full ∨ v = .subspace .steihaug ∨
      v = .str "2D" ∨ v = .str "full" ∨ v = .str "scg"
  | .stepbackStrat, v => v = .stepback .singleReflect ∨ v = .stepback .reflect ∨ v = .stepback .truncate ∨ v = .stepback .mixed ∨
      v = .stepback .refine ∨ v = .str "reflect_single" ∨ v = .str "reflect" ∨ v = .str "truncate" ∨ v = .str "mixed" ∨
      v = .str "refine"
  | .historyFile, v => (∃ s, v = .str s) ∨ v = .path ∨ (∃ d, v = .subspace d) ∨ ∃ d, v = .stepback d
  | _, v => (∃ z : ℤ, v = .int z) ∨ (∃ q : ℚ, v = .real q) ∨ (∃ s, v = .infinite s) ∨ v = .nan

/-- a string (enum members are strings) -/
def IsText (v : RawVal) : Prop := (∃ s, v = .str s) ∨ (∃ d, v = .subspace d) ∨ ∃ d, v = .stepback d

/-- the entry is accepted: a known name and a documented value; the two enum options accept any string when the key is
written as a string -/
def Accepted (kv : RawKey × RawVal) : Prop :=
  ∃ k, Names kv.1 k ∧
    (Documented k kv.2 ∨ (kv.1 = .str (docName k) ∧ (k = .subspaceDim ∨ k = .stepbackStrat) ∧ IsText kv.2))

/-- the entries of a dict: no option is named twice -/
def IsDict : List (RawKey × RawVal) → Prop
  | [] => True
  | kv :: rest => (∀ k, Names kv.1 k → ∀ kv' ∈ rest, ¬ Names kv'.1 k) ∧ IsDict rest

/-- the default values, as documented -/
def docDefault : OptKey → RawVal
  | .maxiter => .real 1000
  | .maxtime => .infinite false
  | .fatol => .real (1 / 10 ^ 8)
  | .frtol => .real (1 / 10 ^ 8)
  | .xtol => .int 0
  | .gatol => .real (1 / 10 ^ 6)
  | .grtol => .int 0
  | .subspaceDim => .subspace .two
  | .stepbackStrat => .stepback .reflect
  | .thetaMax => .real (95 / 100)
  | .deltaInit => .real 1
  | .mu => .real (1 / 4)
  | .eta => .real (3 / 4)
  | .gamma1 => .real (1 / 4)
  | .gamma2 => .int 2
  | .historyFile => .none

/-- the value of an option: that of the dict or the default -/
def Chosen (options : List (RawKey × RawVal)) (k : OptKey) (v : RawVal) : Prop :=
  (∃ kv ∈ options, Names kv.1 k ∧ kv.2 = v) ∨ ((∀ kv ∈ options, ¬ Names kv.1 k) ∧ v = docDefault k)

/-- the number written as an option value -/
def Denotes : RawVal → Num → Prop
  | .int z, x => x = .fin z
  | .real q, x => x = .fin q
  | .infinite false, x => x = .pinf
  | .infinite true, x => x = .ninf
  | .nan, x => x = .nan
  | _, _ => False

/-- the subspace solver written as an option value -/
def DenotesSubspace : RawVal → SubSpaceDim → Prop
  | .subspace d, d' => d' = d
  | .str s, d => (d = .two ↔ s = "2D") ∧ (d = .full ↔ s = "full") ∧ (d = .steihaug ↔ s = "scg")
  | .stepback _, d => d = .other
  | _, _ => False

/-- the stepback strategy written as an option value -/
def DenotesStepback : RawVal → StepBackStrategy → Prop
  | .stepback d, d' => d' = d
  | .str s, d => (d = .singleReflect ↔ s = "reflect_single") ∧ (d = .reflect ↔ s = "reflect") ∧ (d = .truncate ↔ s = "truncate") ∧
      (d = .mixed ↔ s = "mixed") ∧ (d = .refine ↔ s = "refine")
  | .subspace _, d => d = .other
  | _, _ => False

/-- Steihaug's method is chosen, by member or by name -/
def ChoosesSteihaug (options : List (RawKey × RawVal)) : Prop :=
  Chosen options .subspaceDim (.subspace .steihaug) ∨ Chosen options .subspaceDim (.str "scg")

/-- refinement is chosen, by member or by name -/
def ChoosesRefine (options : List (RawKey × RawVal)) : Prop :=
  Chosen options .stepbackStrat (.stepback .refine) ∨ Chosen options .stepbackStrat (.str "refine")

/-- the schemes that need residuals -/
def NeedsResiduals {F : Type} {n : ℕ} : Happ F n → Prop
  | .fx _ _ => True
  | .ssm _ => True
  | .tssm _ => True
  | .gnsbfgs _ _ => True
  | _ => False

/-- a scalar value, a gradient of length `n`, and no Hessian or an `n` by `n` Hessian -/
def GoodShape {F : Type} (n : ℕ) (o : RawOut F) : Prop :=
  (∃ f, o.fval = .scalar f) ∧ (∃ g, o.grad = .arr [n] g) ∧ (o.hess = .none ∨ ∃ h, o.hess = .arr [n, n] h)

/-- a numpy array or a scalar -/
def IsNumeric {F : Type} : PyVal F → Prop
  | .scalar _ => True
  | .arr _ _ => True
  | _ => False

end Fides.Spec
