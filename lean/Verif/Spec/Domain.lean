import Verif.Spec.Smooth

/-!
# Specification vocabulary: objectives that are only defined on a part of the space
-/

namespace Fides.Spec
open Fides Fides.Num

variable {n : ℕ}

/-- the objective handed to the optimizer computes `f` and its gradient `g` at the points of `dom`, and returns a value that is not finite
(`nan` or an infinity) at every other real vector -/
structure EvaluatesIn (E : Env Num n) (dom : Set (Fin n → ℝ)) (f : (Fin n → ℝ) → ℝ) (g : (Fin n → ℝ) → Fin n → ℝ) : Prop where
  inside : ∀ (k : ℕ) (x : Fin n → ℝ) (xId : ℕ) (raw : RawOut Num) (fo : Funout Num n), x ∈ dom →
    funEval E.nargout E.resfun (E.obj k (ofV x)) = .ok raw → raw.typed (ofV x) xId = some fo → fo.fval = fin (f x) ∧ fo.grad = ofV (g x)
  outside : ∀ (k : ℕ) (x : Fin n → ℝ) (xId : ℕ) (raw : RawOut Num) (fo : Funout Num n), x ∉ dom →
    funEval E.nargout E.resfun (E.obj k (ofV x)) = .ok raw → raw.typed (ofV x) xId = some fo → isFinite fo.fval = false

/-- the objective is used without residuals and without Hessian approximation; every call at a point `x` of `dom` returns `(f x, g x, H x)`, and
every call at another real vector returns a tuple of the same shape whose value and gradient are not finite -/
structure ReturnsIn (E : Env Num n) (dom : Set (Fin n → ℝ)) (f : (Fin n → ℝ) → ℝ) (g : (Fin n → ℝ) → Fin n → ℝ)
    (H : (Fin n → ℝ) → Fin n → Fin n → ℝ) : Prop where
  nargout : E.nargout = 3
  resfun : E.resfun = false
  inside : ∀ k x, x ∈ dom → E.obj k (ofV x) = .tuple [.scalar (fin (f x)), .ofVec (ofV (g x)), .ofMat (ofM (H x))]
  outside : ∀ k x, x ∉ dom → ∃ (v : Num) (w : Vec Num n) (h : Mat Num n n), isFinite v = false ∧ (∃ i, isFinite (w i) = false) ∧
    E.obj k (ofV x) = .tuple [.scalar v, .ofVec w, .ofMat h]

/-- the points of the domain that are not worse than `x0` -/
def levelSet (dom : Set (Fin n → ℝ)) (f : (Fin n → ℝ) → ℝ) (x0 : Fin n → ℝ) : Set (Fin n → ℝ) := {x | x ∈ dom ∧ f x ≤ f x0}

/-- around every point of `S` the open ball of radius `r` belongs to the domain, `g` is the gradient of `f` there, and it differs from the gradient
in the centre by at most `L` times the distance -/
structure SmoothNear (L r : ℝ) (dom S : Set (Fin n → ℝ)) (f : (Fin n → ℝ) → ℝ) (g : (Fin n → ℝ) → Fin n → ℝ) : Prop where
  inside : ∀ x ∈ S, ∀ p, rnorm p < r → x + p ∈ dom
  deriv : ∀ x ∈ S, ∀ p, rnorm p < r → ∀ s, HasDerivAt (fun t : ℝ => f (x + p + t • s)) (rdot (g (x + p)) s) 0
  lipschitz : ∀ x ∈ S, ∀ p, rnorm p < r → rnorm (g (x + p) - g x) ≤ L * rnorm p

/-- lower bound for the trust radius as long as the gradient is at least `eps` long -/
noncomputable def domainFloor (mu g1 D0 L M r eps : ℝ) : ℝ := min D0 (min g1 (1 / 4) * min r (min (eps / M) ((1 - mu) * eps / (L + M))))

/-- number of iterations within which a run with Steihaug's solver meets a gradient shorter than `eps` -/
noncomputable def domainBound (mu g1 g2 D0 L M r gap eps : ℝ) : ℕ :=
  passBound g1 g2 D0 gap (domainFloor mu g1 D0 L M r eps) (mu * (eps / 2 * min (domainFloor mu g1 D0 L M r eps) (eps / M)))

/-- the same for the other two solvers and models with second derivatives between `m` and `M` -/
noncomputable def domainNewtonFloor (mu g1 D0 L m M r eps : ℝ) : ℝ :=
  min D0 (min g1 (1 / 4) * min r (min (eps / (2 * M)) ((1 - mu) * m * eps / (L * M))))

noncomputable def domainNewtonBound (mu g1 g2 D0 L m M r gap eps : ℝ) : ℕ :=
  passBound g1 g2 D0 gap (domainNewtonFloor mu g1 D0 L m M r eps) (mu * (m * eps / (2 * M) * min (domainNewtonFloor mu g1 D0 L m M r eps) (eps / m)))

end Fides.Spec
