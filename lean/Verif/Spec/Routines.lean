import Verif.Spec.Proposal
import Verif.Spec.TrustRegion

/-!
# Specification vocabulary: external routines that compute what they are called for
-/

namespace Fides.Spec
open Fides Fides.Num

/-- the linear algebra and root finding routines called by the subproblem solvers return exact results on symmetric matrices: orthonormal
eigendecompositions, least-squares solutions of minimal length, and roots of the functions they are given -/
structure ExactRoutines (O : Oracles Num) : Prop where
  eig : ∀ {k : ℕ} (B : Fin k → Fin k → ℝ), Sym B → ∃ vals U, O.sub.eig (ofM B) = .ok (ofV vals, ofM U) ∧ IsEig B vals U
  npEig : ∀ {k : ℕ} (B : Fin k → Fin k → ℝ), Sym B → ∃ vals U, O.npEig (ofM B) = .ok (ofV vals, ofV (fun i => |vals i|), ofM U) ∧ IsEig B vals U
  lstsq : ∀ {k : ℕ} (B : Fin k → Fin k → ℝ) (g : Fin k → ℝ), Sym B → ∃ z, O.lstsq (ofM B) (ofV g) = .ok (ofV z) ∧
    (∀ y, rnorm (rmv B z - g) ≤ rnorm (rmv B y - g)) ∧ ∀ y, rnorm (rmv B y - g) ≤ rnorm (rmv B z - g) → rnorm z ≤ rnorm y
  roots : ∀ f x0 f', (∃ q : ℝ, x0 ≤ q ∧ f (fin q) = fin 0) → ∃ q : ℝ, O.sub.newton f (fin x0) f' = .ok (fin q) ∧ x0 ≤ q ∧ f (fin q) = fin 0

/-- the constrained optimizer used by the strategy `refine` returns numbers, and respects the constraint on the length of the step -/
def RefinesInBall (O : Oracles Num) : Prop :=
  ∀ {k : ℕ} (P : Prob Num k) (st : Step Num k) (D : ℝ), 0 < D → P.delta = fin D →
    ∃ cs : List ℝ, O.refine P st = .ok (cs.map fin) ∧ ∀ p : Fin k → ℝ, subDot st.subspace (cs.map fin) = ofV p → rnorm p ≤ D

/-- the external routines raise exceptions only as documented: the linear algebra routines return for symmetric matrices of numbers, the constrained optimizer returns; the root
finders raise RuntimeError when they do not converge, and `brentq` raises other exceptions only for intervals without a change of sign or without iterations -/
structure DocumentedErrors (O : Oracles Num) : Prop where
  eig : ∀ {k : ℕ} (B : Fin k → Fin k → ℝ), Sym B → ∃ r, O.sub.eig (ofM B) = .ok r
  npEig : ∀ {k : ℕ} (B : Fin k → Fin k → ℝ), Sym B → ∃ r, O.npEig (ofM B) = .ok r
  lstsq : ∀ {k : ℕ} (B : Fin k → Fin k → ℝ) (g : Fin k → ℝ), Sym B → ∃ r, O.lstsq (ofM B) (ofV g) = .ok r
  newton : ∀ f x f' e, O.sub.newton f x f' = .error e → e = .runtimeError
  brentq : ∀ f a b m e, lt (f a) (fin 0) = true → le (fin 0) (f b) = true → 0 < m → O.sub.brentq f a b m = .error e → e = .runtimeError
  refine : ∀ {k : ℕ} (P : Prob Num k) (st : Step Num k), ∃ r, O.refine P st = .ok r

end Fides.Spec
