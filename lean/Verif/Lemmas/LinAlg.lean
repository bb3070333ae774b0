import Verif.Spec.Linear
import Mathlib.LinearAlgebra.Matrix.PosDef
import Mathlib.Tactic.Ring
import Mathlib.Tactic.FieldSimp
import Mathlib.Tactic.Linarith
import Mathlib.Tactic.Positivity
import Mathlib.Algebra.BigOperators.Field

/-! Elementary linear algebra over `Fin n → ℝ` used by the property files. -/

namespace Fides.Num
open Fides.Spec
variable {m n : ℕ}

theorem rdot_comm (v w : Fin n → ℝ) : rdot v w = rdot w v := by
  unfold rdot; exact Finset.sum_congr rfl fun _ _ => mul_comm _ _
theorem rdot_add (u v w : Fin n → ℝ) : rdot u (v + w) = rdot u v + rdot u w := by
  simp [rdot, mul_add, Finset.sum_add_distrib]
theorem rdot_sub (u v w : Fin n → ℝ) : rdot u (v - w) = rdot u v - rdot u w := by
  simp [rdot, mul_sub, Finset.sum_sub_distrib]
theorem rdot_smul (u : Fin n → ℝ) (c : ℝ) (v : Fin n → ℝ) : rdot u (c • v) = c * rdot u v := by
  simp only [rdot, Finset.mul_sum, Pi.smul_apply, smul_eq_mul]
  exact Finset.sum_congr rfl fun _ _ => by ring
theorem rdot_neg (u v : Fin n → ℝ) : rdot u (-v) = -rdot u v := by simp [rdot]
theorem rdot_zero (u : Fin n → ℝ) : rdot u 0 = 0 := by simp [rdot]
theorem add_rdot (u v w : Fin n → ℝ) : rdot (u + v) w = rdot u w + rdot v w := by
  rw [rdot_comm, rdot_add, rdot_comm w u, rdot_comm w v]
theorem sub_rdot (u v w : Fin n → ℝ) : rdot (u - v) w = rdot u w - rdot v w := by
  rw [rdot_comm, rdot_sub, rdot_comm w u, rdot_comm w v]
theorem smul_rdot (c : ℝ) (u v : Fin n → ℝ) : rdot (c • u) v = c * rdot u v := by
  rw [rdot_comm, rdot_smul, rdot_comm]
theorem neg_rdot (u v : Fin n → ℝ) : rdot (-u) v = -rdot u v := by rw [rdot_comm, rdot_neg, rdot_comm]
theorem zero_rdot (u : Fin n → ℝ) : rdot 0 u = 0 := by simp [rdot]

theorem rdot_self_eq_zero {v : Fin n → ℝ} : rdot v v = 0 ↔ v = 0 := by
  constructor
  · intro h
    have := (Finset.sum_eq_zero_iff_of_nonneg (fun i _ => mul_self_nonneg (v i))).mp h
    funext i
    exact mul_self_eq_zero.mp (this i (Finset.mem_univ i))
  · rintro rfl; simp [rdot]
theorem rdot_self_pos {v : Fin n → ℝ} (h : v ≠ 0) : 0 < rdot v v :=
  lt_of_le_of_ne (rdot_self_nonneg v) (fun h' => h (rdot_self_eq_zero.mp h'.symm))

theorem rnorm_nonneg (v : Fin n → ℝ) : 0 ≤ rnorm v := Real.sqrt_nonneg _
theorem rnorm_sq (v : Fin n → ℝ) : rnorm v * rnorm v = rdot v v := Real.mul_self_sqrt (rdot_self_nonneg v)
theorem rnorm_eq_zero {v : Fin n → ℝ} : rnorm v = 0 ↔ v = 0 := by
  rw [rnorm, Real.sqrt_eq_zero (rdot_self_nonneg v), rdot_self_eq_zero]
theorem rnorm_pos {v : Fin n → ℝ} (h : v ≠ 0) : 0 < rnorm v := Real.sqrt_pos.mpr (rdot_self_pos h)
theorem rnorm_le_iff {v : Fin n → ℝ} {d : ℝ} (hd : 0 ≤ d) : rnorm v ≤ d ↔ rdot v v ≤ d * d := by
  rw [rnorm, Real.sqrt_le_left hd, sq]
theorem rnorm_smul (c : ℝ) (v : Fin n → ℝ) : rnorm (c • v) = |c| * rnorm v := by
  unfold rnorm
  rw [smul_rdot, rdot_smul, ← mul_assoc, Real.sqrt_mul (mul_self_nonneg c), Real.sqrt_mul_self_eq_abs]

theorem cauchy_schwarz_sq (v w : Fin n → ℝ) : rdot v w * rdot v w ≤ rdot v v * rdot w w := by
  have := Finset.sum_mul_sq_le_sq_mul_sq Finset.univ v w
  have h1 : ∑ i, v i ^ 2 = rdot v v := Finset.sum_congr rfl fun _ _ => sq _
  have h2 : ∑ i, w i ^ 2 = rdot w w := Finset.sum_congr rfl fun _ _ => sq _
  rw [h1, h2, sq] at this
  exact this
theorem cauchy_schwarz (v w : Fin n → ℝ) : rdot v w ≤ rnorm v * rnorm w := by
  have h := cauchy_schwarz_sq v w
  rw [← rnorm_sq v, ← rnorm_sq w] at h
  nlinarith [rnorm_nonneg v, rnorm_nonneg w, mul_nonneg (rnorm_nonneg v) (rnorm_nonneg w)]
theorem abs_rdot_le (v w : Fin n → ℝ) : |rdot v w| ≤ rnorm v * rnorm w := by
  rw [abs_le]
  refine ⟨?_, cauchy_schwarz v w⟩
  have := cauchy_schwarz (-v) w
  rw [neg_rdot] at this
  have h2 : rnorm (-v) = rnorm v := by simp [rnorm, neg_rdot, rdot_neg]
  rw [h2] at this
  linarith

theorem rmv_add (a : Fin m → Fin n → ℝ) (v w : Fin n → ℝ) : rmv a (v + w) = rmv a v + rmv a w := by
  funext i; exact rdot_add _ _ _
theorem rmv_sub (a : Fin m → Fin n → ℝ) (v w : Fin n → ℝ) : rmv a (v - w) = rmv a v - rmv a w := by
  funext i; exact rdot_sub _ _ _
theorem rmv_smul (a : Fin m → Fin n → ℝ) (c : ℝ) (v : Fin n → ℝ) : rmv a (c • v) = c • rmv a v := by
  funext i; exact rdot_smul _ _ _
theorem rmv_neg (a : Fin m → Fin n → ℝ) (v : Fin n → ℝ) : rmv a (-v) = -rmv a v := by
  funext i; exact rdot_neg _ _
theorem rmv_zero (a : Fin m → Fin n → ℝ) : rmv a 0 = 0 := by funext i; exact rdot_zero _
theorem add_rmv (a b : Fin m → Fin n → ℝ) (v : Fin n → ℝ) : rmv (a + b) v = rmv a v + rmv b v := by
  funext i; exact add_rdot _ _ _
theorem sub_rmv (a b : Fin m → Fin n → ℝ) (v : Fin n → ℝ) : rmv (a - b) v = rmv a v - rmv b v := by
  funext i; exact sub_rdot _ _ _
theorem smul_rmv (c : ℝ) (a : Fin m → Fin n → ℝ) (v : Fin n → ℝ) : rmv (c • a) v = c • rmv a v := by
  funext i; exact smul_rdot _ _ _
theorem outer_rmv (u : Fin m → ℝ) (w v : Fin n → ℝ) : rmv (fun i j => u i * w j) v = rdot w v • u := by
  funext i
  simp only [rmv, rdot, Pi.smul_apply, smul_eq_mul, Finset.sum_mul]
  exact Finset.sum_congr rfl fun _ _ => by ring
theorem div_rmv (a : Fin m → Fin n → ℝ) (c : ℝ) (v : Fin n → ℝ) :
    rmv (fun i j => a i j / c) v = (1 / c) • rmv a v := by
  funext i
  simp only [rmv, rdot, Pi.smul_apply, smul_eq_mul, Finset.mul_sum]
  exact Finset.sum_congr rfl fun _ _ => by ring
theorem idM_rmv (v : Fin n → ℝ) : rmv idM v = v := by
  funext i; simp [rmv, rdot, idM]

/-- symmetric matrices are self-adjoint -/
theorem Sym.rdot_rmv {a : Fin n → Fin n → ℝ} (h : Sym a) (v w : Fin n → ℝ) :
    rdot v (rmv a w) = rdot (rmv a v) w := by
  simp only [rmv, rdot, Finset.mul_sum, Finset.sum_mul]
  rw [Finset.sum_comm]
  exact Finset.sum_congr rfl fun i _ => Finset.sum_congr rfl fun j _ => by rw [h j i]; ring

theorem rdot_transpose (a : Fin m → Fin n → ℝ) (v : Fin m → ℝ) (w : Fin n → ℝ) :
    rdot v (rmv a w) = rdot (fun j => rdot v (fun i => a i j)) w := by
  simp only [rmv, rdot, Finset.mul_sum, Finset.sum_mul]
  rw [Finset.sum_comm]
  exact Finset.sum_congr rfl fun i _ => Finset.sum_congr rfl fun j _ => by ring

theorem PD_idM : PD (idM : Fin n → Fin n → ℝ) := fun v h => by rw [idM_rmv]; exact rdot_self_pos h
theorem Sym_idM : Sym (idM : Fin n → Fin n → ℝ) := fun i j => by
  unfold idM; by_cases h : i = j <;> simp [h, eq_comm]
theorem PD.psd {a : Fin n → Fin n → ℝ} (h : PD a) : PSD a := fun v => by
  by_cases hv : v = 0
  · subst hv; rw [zero_rdot]
  · exact (h v hv).le
theorem Sym.add {a b : Fin n → Fin n → ℝ} (ha : Sym a) (hb : Sym b) : Sym (a + b) := fun i j => by
  simp only [Pi.add_apply]; rw [ha i j, hb i j]
theorem Sym.smul {a : Fin n → Fin n → ℝ} (c : ℝ) (ha : Sym a) : Sym (c • a) := fun i j => by
  simp only [Pi.smul_apply, smul_eq_mul]; rw [ha i j]
theorem PSD.add_PD {a b : Fin n → Fin n → ℝ} (ha : PSD a) (hb : PD b) : PD (a + b) := fun v hv => by
  rw [add_rmv, rdot_add]; have := ha v; have := hb v hv; linarith

end Fides.Num
