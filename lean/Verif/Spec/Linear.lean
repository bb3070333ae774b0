import Verif.Num

/-!
# Specification vocabulary: real vectors and matrices

Vectors are `Fin n → ℝ`, matrices `Fin n → Fin n → ℝ`; `rdot`, `rmv`, `rnorm` are the usual dot product,
matrix-vector product and Euclidean norm.
-/

namespace Fides.Spec
open Fides.Num

variable {n : ℕ}

/-- symmetric matrix -/
def Sym (a : Fin n → Fin n → ℝ) : Prop := ∀ i j, a i j = a j i
/-- positive definite quadratic form -/
def PD (a : Fin n → Fin n → ℝ) : Prop := ∀ v : Fin n → ℝ, v ≠ 0 → 0 < rdot v (rmv a v)
/-- positive semidefinite quadratic form -/
def PSD (a : Fin n → Fin n → ℝ) : Prop := ∀ v : Fin n → ℝ, 0 ≤ rdot v (rmv a v)
/-- identity matrix -/
def idM : Fin n → Fin n → ℝ := fun i j => if i = j then 1 else 0
/-- squared Frobenius norm -/
noncomputable def frobSq (a : Fin n → Fin n → ℝ) : ℝ := ∑ i, ∑ j, a i j ^ 2

/-- every entry is a finite number -/
def Finite (a : Mat Num n n) : Prop := ∃ r : Fin n → Fin n → ℝ, a = ofM r
/-- finite, symmetric and positive definite -/
def FinSPD (a : Mat Num n n) : Prop := ∃ r : Fin n → Fin n → ℝ, a = ofM r ∧ Sym r ∧ PD r
/-- finite and symmetric -/
def FinSym (a : Mat Num n n) : Prop := ∃ r : Fin n → Fin n → ℝ, a = ofM r ∧ Sym r

/-- the quadratic model `g·s + s·B·s/2` of the documentation -/
noncomputable def quad (b : Fin n → Fin n → ℝ) (g s : Fin n → ℝ) : ℝ := rdot g s + rdot s (rmv b s) / 2

end Fides.Spec
