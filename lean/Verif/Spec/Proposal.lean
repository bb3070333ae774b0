import Verif.Model.TrustRegion
import Verif.Spec.Linear
import Verif.Spec.Box
import Verif.Spec.TrustRegion

/-!
# Specification vocabulary: the data of one proposal computation (call of `trust_region`)
-/

namespace Fides.Spec
open Fides.Num

variable {n : ℕ}

/-- finite data of a proposal computation, in real numbers -/
structure RealData (I : TRIn Num n) (x d g dv : Fin n → ℝ) (H : Fin n → Fin n → ℝ) (delta theta : ℝ) : Prop where
  x : I.x = ofV x
  scaling : I.scaling = ofV d
  g : I.g = ofV g
  dv : I.dv = ofV dv
  hess : I.hess = ofM H
  delta : I.delta = fin delta
  theta : I.theta = fin theta
  sym : Sym H

/-- the external routines (eigenvalues, least squares, root finders, `trust-constr` refinement) return finite numbers when given
finite numbers, if they return at all -/
structure FiniteOracles (O : Oracles Num) : Prop where
  eig : ∀ {k : ℕ} (B : Fin k → Fin k → ℝ) v U, O.sub.eig (ofM B) = .ok (v, U) → (∃ r, v = ofV r) ∧ ∃ r, U = ofM r
  newton : ∀ f x f' r, O.sub.newton f x f' = .ok r → ∃ q, r = fin q
  brentq : ∀ f a b m r, O.sub.brentq f a b m = .ok r → ∃ q, r = fin q
  lstsq : ∀ {k : ℕ} (B : Fin k → Fin k → ℝ) (g : Fin k → ℝ) v, O.lstsq (ofM B) (ofV g) = .ok v → ∃ r, v = ofV r
  npEig : ∀ {k : ℕ} (B : Fin k → Fin k → ℝ) re ab V, O.npEig (ofM B) = .ok (re, ab, V) → ∃ r, V = ofM r
  refine : ∀ {k : ℕ} (P : Prob Num k) st sc, O.refine P st = .ok sc → ∃ r : List ℝ, sc = r.map fin

/-- contract of the eigenvalue routine used by the n-dimensional solver: what it returns for a symmetric matrix is an
orthonormal eigendecomposition -/
def ExactEig (O : SubOracles Num) : Prop :=
  ∀ {k : ℕ} (B : Fin k → Fin k → ℝ), Sym B → ∀ v U, O.eig (ofM B) = .ok (v, U) → ∃ vals Ur, v = ofV vals ∧ U = ofM Ur ∧ IsEig B vals Ur

/-- the external routines terminate (they may raise) -/
structure TerminatingOracles {F : Type} (O : Oracles F) : Prop where
  eig : ∀ {k : ℕ} (B : Mat F k k), O.sub.eig B ≠ .error .diverges
  newton : ∀ f x f', O.sub.newton f x f' ≠ .error .diverges
  brentq : ∀ f a b m, O.sub.brentq f a b m ≠ .error .diverges
  lstsq : ∀ {k : ℕ} (B : Mat F k k) g, O.lstsq B g ≠ .error .diverges
  npEig : ∀ {k : ℕ} (B : Mat F k k), O.npEig B ≠ .error .diverges
  refine : ∀ {k : ℕ} (P : Prob F k) st, O.refine P st ≠ .error .diverges

end Fides.Spec
