import Verif.Spec.Run
import Verif.Spec.Linear
import Mathlib.Analysis.Calculus.Deriv.Basic
import Mathlib.Analysis.SpecialFunctions.Log.Basic

/-!
# Specification vocabulary: smooth objectives and iteration bounds
-/

namespace Fides.Spec
open Fides Fides.Num

variable {n : ℕ}

/-- the objective handed to the optimizer computes the function `f` and its gradient `g`: whenever a call at a real vector `x` returns
(with the right shapes), the value returned is `f x` and the gradient returned is `g x` -/
def Evaluates (E : Env Num n) (f : (Fin n → ℝ) → ℝ) (g : (Fin n → ℝ) → Fin n → ℝ) : Prop :=
  ∀ (k : ℕ) (x : Fin n → ℝ) (xId : ℕ) (raw : RawOut Num) (fo : Funout Num n),
    funEval E.nargout E.resfun (E.obj k (ofV x)) = .ok raw → raw.typed (ofV x) xId = some fo → fo.fval = fin (f x) ∧ fo.grad = ofV (g x)

/-- the objective handed to the optimizer is used without residuals and without Hessian approximation, and every call at a real vector `x`
returns the tuple `(f x, g x, H x)` -/
structure Returns (E : Env Num n) (f : (Fin n → ℝ) → ℝ) (g : (Fin n → ℝ) → Fin n → ℝ) (H : (Fin n → ℝ) → Fin n → Fin n → ℝ) : Prop where
  nargout : E.nargout = 3
  resfun : E.resfun = false
  obj : ∀ k x, E.obj k (ofV x) = .tuple [.scalar (fin (f x)), .ofVec (ofV (g x)), .ofMat (ofM (H x))]

/-- `g` is the gradient of `f` (every directional derivative of `f` at `x` is the product with `g x`) and it is Lipschitz continuous with
constant `L` -/
structure SmoothWith (L : ℝ) (f : (Fin n → ℝ) → ℝ) (g : (Fin n → ℝ) → Fin n → ℝ) : Prop where
  deriv : ∀ x s, HasDerivAt (fun t : ℝ => f (x + t • s)) (rdot (g x) s) 0
  lipschitz : ∀ x y, rnorm (g y - g x) ≤ L * rnorm (y - x)

/-- symmetric real matrix whose quadratic form is bounded by `M` -/
def BoundedSym (M : ℝ) (a : Mat Num n n) : Prop :=
  ∃ B : Fin n → Fin n → ℝ, a = ofM B ∧ Sym B ∧ ∀ v, |rdot v (rmv B v)| ≤ M * rdot v v

/-- symmetric real matrix whose quadratic form lies between `m` and `M` times the squared length -/
def BetweenSym (m M : ℝ) (a : Mat Num n n) : Prop :=
  ∃ B : Fin n → Fin n → ℝ, a = ofM B ∧ Sym B ∧ ∀ v, m * rdot v v ≤ rdot v (rmv B v) ∧ rdot v (rmv B v) ≤ M * rdot v v

/-- the numbers of the trust-region options the iteration bound depends on -/
structure TRParams (E : Env Num n) (mu eta g1 g2 D0 : ℝ) : Prop where
  hmu : E.opts.mu = fin mu
  heta : E.opts.eta = fin eta
  gamma1 : E.opts.gamma1 = fin g1
  gamma2 : E.opts.gamma2 = fin g2
  deltaInit : E.opts.deltaInit = fin D0
  theta : ∃ tm : ℝ, E.opts.thetaMax = fin tm ∧ 0 < tm ∧ tm ≤ 1
  mu_pos : 0 < mu
  mu_lt : mu < 1
  mu_eta : mu < eta
  g1_pos : 0 < g1
  g1_lt : g1 < 1
  g2_ge : 1 ≤ g2
  D0_pos : 0 < D0

/-- lower bound for the trust radius as long as the gradient is at least `eps` long -/
noncomputable def radiusFloor (mu g1 D0 L M eps : ℝ) : ℝ := min D0 (min g1 (1 / 4) * min (eps / M) ((1 - mu) * eps / (L + M)))

/-- lower bound for the reduction of the objective by a successful step as long as the gradient is at least `eps` long -/
noncomputable def stepReduction (mu g1 D0 L M eps : ℝ) : ℝ := mu * (eps / 2 * min (radiusFloor mu g1 D0 L M eps) (eps / M))

/-- number of successful steps after which an objective that starts `gap` above a lower bound would have gone below it -/
noncomputable def successBound (mu g1 D0 L M gap eps : ℝ) : ℕ := ⌊gap / stepReduction mu g1 D0 L M eps⌋₊ + 1

/-- number of iterations a run can make whose objective starts `gap` above a lower bound, if every successful step reduces the objective by at
least `dec` and multiplies the radius by at most `g2`, every other one multiplies it by at most `g1`, and the radius, initially `D0`, stays
above `lo` -/
noncomputable def passBound (g1 g2 D0 gap lo dec : ℝ) : ℕ :=
  let G := ⌊gap / dec⌋₊ + 1
  G + (⌊Real.log (D0 * g2 ^ G / lo) / Real.log (1 / g1)⌋₊ + 1)

/-- number of iterations within which a run whose objective starts `gap` above a lower bound meets a gradient shorter than `eps`; `L` and `M`
bound the second derivatives of the objective and of the model -/
noncomputable def iterBound (mu g1 g2 D0 L M gap eps : ℝ) : ℕ :=
  let G := successBound mu g1 D0 L M gap eps
  G + (⌊Real.log (D0 * g2 ^ G / radiusFloor mu g1 D0 L M eps) / Real.log (1 / g1)⌋₊ + 1)

/-- lower bound for the trust radius as long as the gradient is at least `eps` long, for models with second derivatives between `m` and `M` -/
noncomputable def newtonFloor (mu g1 D0 L m M eps : ℝ) : ℝ := min D0 (min g1 (1 / 4) * min (eps / (2 * M)) ((1 - mu) * m * eps / (L * M)))

/-- lower bound for the reduction of the objective by a successful step, for models with second derivatives between `m` and `M` -/
noncomputable def newtonReduction (mu g1 D0 L m M eps : ℝ) : ℝ := mu * (m * eps / (2 * M) * min (newtonFloor mu g1 D0 L m M eps) (eps / m))

/-- number of iterations within which a run meets a gradient shorter than `eps`, for models with second derivatives between `m` and `M` -/
noncomputable def newtonBound (mu g1 g2 D0 L m M gap eps : ℝ) : ℕ :=
  passBound g1 g2 D0 gap (newtonFloor mu g1 D0 L m M eps) (newtonReduction mu g1 D0 L m M eps)

end Fides.Spec
