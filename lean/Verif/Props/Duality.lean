import Verif.Lemmas.Hessian
import Mathlib.LinearAlgebra.Matrix.NonsingularInverse

/-!
# C54: BFGS, DFP and the Broyden family are the textbook formulas

`B` is the approximation before `update(s, y)`, `ρ = 1/(y·s)`.  `DFP` gives
`(I - ρ y sᵀ) B (I - ρ s yᵀ) + ρ y yᵀ`; the inverse of what `BFGS` gives is
`(I - ρ s yᵀ) B⁻¹ (I - ρ y sᵀ) + ρ s sᵀ`; `Broyden(phi)` gives `(1 - phi) BFGS + phi DFP`.
-/

namespace Fides
open Num Spec Matrix
variable {n : ℕ}

theorem rmv_mulVec {k : ℕ} (a : Fin k → Fin n → ℝ) (v : Fin n → ℝ) : Matrix.of a *ᵥ v = rmv a v := rfl

theorem dotProduct_rdot (v w : Fin n → ℝ) : v ⬝ᵥ w = rdot v w := rfl

/-- the Broyden update as an operator -/
theorem rbroyden_rmv (y s : Fin n → ℝ) (B : Fin n → Fin n → ℝ) (phi : ℝ) (x : Fin n → ℝ) :
    rmv (rbroyden y s B phi) x = (rdot y x / rdot y s) • y - (rdot (rmv B s) x / rdot (rmv B s) s) • rmv B s
      + (phi * rdot (rmv B s) s * (rdot y x / rdot y s - rdot (rmv B s) x / rdot (rmv B s) s)) •
        (fun i => y i / rdot y s - rmv B s i / rdot (rmv B s) s) := by
  have hv : rdot (fun j => y j / rdot y s - rmv B s j / rdot (rmv B s) s) x
      = rdot y x / rdot y s - rdot (rmv B s) x / rdot (rmv B s) s := by
    have : (fun j => y j / rdot y s - rmv B s j / rdot (rmv B s) s) =
        (1 / rdot y s) • y - (1 / rdot (rmv B s) s) • rmv B s := by
      funext j; simp; ring
    rw [this, sub_rdot, smul_rdot, smul_rdot]; ring
  have e1 : rbroyden y s B phi = (fun i j => y i * y j / rdot y s) - (fun i j => rmv B s i * rmv B s j / rdot (rmv B s) s)
      + (phi * rdot (rmv B s) s) • (fun i j => (y i / rdot y s - rmv B s i / rdot (rmv B s) s) *
        (y j / rdot y s - rmv B s j / rdot (rmv B s) s)) := by
    funext i j; simp [rbroyden]
  rw [e1, add_rmv, sub_rmv, div_rmv (fun i j => y i * y j), div_rmv (fun i j => rmv B s i * rmv B s j),
    smul_rmv, outer_rmv, outer_rmv, outer_rmv, hv, smul_smul, smul_smul, smul_smul]
  congr 2 <;> ring_nf

theorem update_broyden (h : IterApprox Num n) (phi : ℝ) (e : Bool) (B : Fin n → Fin n → ℝ) (s y : Fin n → ℝ)
    (hsch : h.scheme = .broyden (fin phi) e) (hB : h.getMat = ofM B)
    (hb : rdot y s ≠ 0) (hc : rdot (rmv B s) s ≠ 0) (he : e = true → 0 < rdot y s) :
    (h.update (ofV s) (ofV y)).getMat = ofM (B + rbroyden y s B phi) := by
  simp only [IterApprox.getMat] at hB ⊢
  simp only [IterApprox.update, hsch, IterApprox.computeUpdate, hB, broyden_fin y s B phi e hb hc he, madd_ofM]

/-- the updated matrix as a Mathlib matrix -/
noncomputable def mbroyden (y s : Fin n → ℝ) (B : Fin n → Fin n → ℝ) (phi : ℝ) : Matrix (Fin n) (Fin n) ℝ :=
  Matrix.of (B + rbroyden y s B phi)

theorem mbroyden_mulVec (y s : Fin n → ℝ) (B : Fin n → Fin n → ℝ) (phi : ℝ) (x : Fin n → ℝ) :
    mbroyden y s B phi *ᵥ x = rmv B x + rmv (rbroyden y s B phi) x := by
  rw [← add_rmv]; rfl

/-- C54, DFP. -/
theorem C54_dfp (h : IterApprox Num n) (e : Bool) (B : Fin n → Fin n → ℝ) (s y : Fin n → ℝ)
    (hsch : h.scheme = .dfp e) (hB : h.getMat = ofM B) (hsym : (Matrix.of B).IsSymm)
    (hb : y ⬝ᵥ s ≠ 0) (hc : s ⬝ᵥ (Matrix.of B *ᵥ s) ≠ 0) (he : e = true → 0 < y ⬝ᵥ s) :
    (h.update (ofV s) (ofV y)).getMat =
      ofM ((1 - (y ⬝ᵥ s)⁻¹ • vecMulVec y s) * Matrix.of B * (1 - (y ⬝ᵥ s)⁻¹ • vecMulVec s y)
        + (y ⬝ᵥ s)⁻¹ • vecMulVec y y : Matrix (Fin n) (Fin n) ℝ) := by
  rw [dotProduct_rdot] at *
  replace hc : rdot (rmv B s) s ≠ 0 := by rw [rdot_comm]; exact hc
  have hS : Sym B := fun i j => (congrFun (congrFun hsym.eq i) j).symm
  have hsch' : h.scheme = .broyden (fin 1) e := by rw [hsch]; simp [IterScheme.dfp]
  rw [update_broyden h 1 e B s y hsch' hB hb hc he]
  congr 1
  show mbroyden y s B 1 = _
  refine Matrix.ext_of_mulVec_single fun j => ?_
  generalize (Pi.single j (1 : ℝ) : Fin n → ℝ) = x
  rw [mbroyden_mulVec, rbroyden_rmv]
  simp only [Matrix.add_mulVec, ← Matrix.mulVec_mulVec, Matrix.sub_mulVec, Matrix.one_mulVec, Matrix.smul_mulVec,
    Matrix.vecMulVec_mulVec, Matrix.mulVec_sub, Matrix.mulVec_smul, dotProduct_rdot]
  simp only [rmv_mulVec]
  have hsx : rdot s (rmv B x) = rdot (rmv B s) x := Num.Sym.rdot_rmv hS s x
  have hc' : rdot s (rmv B s) = rdot (rmv B s) s := rdot_comm _ _
  funext i
  simp only [Pi.add_apply, Pi.sub_apply, Pi.smul_apply, smul_eq_mul, op_smul_eq_smul, rdot_sub, rdot_smul,
    dotProduct_sub, dotProduct_smul, hsx, hc', rmv_smul, dotProduct_rdot]
  field_simp
  ring

/-- C54, BFGS: the closed form of the inverse. -/
theorem C54_bfgs (h : IterApprox Num n) (e : Bool) (B : Fin n → Fin n → ℝ) (s y : Fin n → ℝ)
    (hsch : h.scheme = .bfgs e) (hB : h.getMat = ofM B) (hsym : (Matrix.of B).IsSymm) (hinv : IsUnit (Matrix.of B).det)
    (hb : y ⬝ᵥ s ≠ 0) (hc : s ⬝ᵥ (Matrix.of B *ᵥ s) ≠ 0) (he : e = true → 0 < y ⬝ᵥ s) :
    ∃ B' : Matrix (Fin n) (Fin n) ℝ, (h.update (ofV s) (ofV y)).getMat = ofM B' ∧
      B'⁻¹ = (1 - (y ⬝ᵥ s)⁻¹ • vecMulVec s y) * (Matrix.of B)⁻¹ * (1 - (y ⬝ᵥ s)⁻¹ • vecMulVec y s)
        + (y ⬝ᵥ s)⁻¹ • vecMulVec s s := by
  rw [dotProduct_rdot] at *
  replace hc : rdot (rmv B s) s ≠ 0 := by rw [rdot_comm]; exact hc
  have hS : Sym B := fun i j => (congrFun (congrFun hsym.eq i) j).symm
  have hsch' : h.scheme = .broyden (fin 0) e := by rw [hsch]; simp [IterScheme.bfgs]
  refine ⟨mbroyden y s B 0, update_broyden h 0 e B s y hsch' hB hb hc he, ?_⟩
  refine Matrix.inv_eq_right_inv ?_
  refine Matrix.ext_of_mulVec_single fun j => ?_
  generalize (Pi.single j (1 : ℝ) : Fin n → ℝ) = x
  rw [Matrix.one_mulVec, ← Matrix.mulVec_mulVec]
  simp only [Matrix.add_mulVec, ← Matrix.mulVec_mulVec, Matrix.sub_mulVec, Matrix.one_mulVec, Matrix.smul_mulVec,
    Matrix.vecMulVec_mulVec, dotProduct_rdot]
  simp only [op_smul_eq_smul, smul_smul]
  set z : Fin n → ℝ := x - ((rdot y s)⁻¹ * rdot s x) • y with hz
  set w : Fin n → ℝ := (Matrix.of B)⁻¹ *ᵥ z with hw
  have hBw : rmv B w = z := by
    rw [hw, ← rmv_mulVec, Matrix.mulVec_mulVec, Matrix.mul_nonsing_inv _ hinv, Matrix.one_mulVec]
  have hsz : rdot s z = 0 := by
    rw [hz, rdot_sub, rdot_smul, rdot_comm s y]; field_simp; ring
  rw [mbroyden_mulVec, rbroyden_rmv]
  set t : Fin n → ℝ := w - ((rdot y s)⁻¹ * rdot y w) • s + ((rdot y s)⁻¹ * rdot s x) • s with ht
  have hyt : rdot y t = rdot s x := by
    rw [ht, rdot_add, rdot_sub, rdot_smul, rdot_smul]; field_simp; ring
  have hBt : rmv B t = z + ((rdot y s)⁻¹ * rdot s x - (rdot y s)⁻¹ * rdot y w) • rmv B s := by
    rw [ht, rmv_add, rmv_sub, rmv_smul, rmv_smul, hBw]
    funext i; simp; ring
  have hBst : rdot (rmv B s) t = ((rdot y s)⁻¹ * rdot s x - (rdot y s)⁻¹ * rdot y w) * rdot (rmv B s) s := by
    rw [← Num.Sym.rdot_rmv hS s t, hBt, rdot_add, rdot_smul, hsz, rdot_comm s (rmv B s)]; ring
  rw [hyt, hBt, hBst, hz]
  funext i
  simp only [Pi.add_apply, Pi.sub_apply, Pi.smul_apply, smul_eq_mul]
  field_simp
  ring

/-- C54, the family: for every `phi` the result is the affine combination of the BFGS and the DFP result. -/
theorem C54_family (h hB hD : IterApprox Num n) (e : Bool) (phi : ℝ) (B : Fin n → Fin n → ℝ) (s y : Fin n → ℝ)
    (hsch : h.scheme = .broyden (fin phi) e) (hschB : hB.scheme = .bfgs e) (hschD : hD.scheme = .dfp e)
    (hm : h.getMat = ofM B) (hmB : hB.getMat = ofM B) (hmD : hD.getMat = ofM B)
    (hb : y ⬝ᵥ s ≠ 0) (hc : s ⬝ᵥ (Matrix.of B *ᵥ s) ≠ 0) (he : e = true → 0 < y ⬝ᵥ s) :
    ∃ Bb Bd : Fin n → Fin n → ℝ, (hB.update (ofV s) (ofV y)).getMat = ofM Bb ∧
      (hD.update (ofV s) (ofV y)).getMat = ofM Bd ∧
      (h.update (ofV s) (ofV y)).getMat = ofM ((1 - phi) • Bb + phi • Bd) := by
  rw [dotProduct_rdot] at *
  have hc' : rdot (rmv B s) s ≠ 0 := by rw [rdot_comm]; exact hc
  refine ⟨B + rbroyden y s B 0, B + rbroyden y s B 1,
    update_broyden hB 0 e B s y (by rw [hschB]; simp [IterScheme.bfgs]) hmB hb hc' he,
    update_broyden hD 1 e B s y (by rw [hschD]; simp [IterScheme.dfp]) hmD hb hc' he, ?_⟩
  rw [update_broyden h phi e B s y hsch hm hb hc' he]
  congr 1
  funext i j
  simp only [rbroyden, Pi.add_apply, Pi.smul_apply, smul_eq_mul]
  ring

/-- non-vacuity: the identity, `s = (1, 0)`, `y = (2, 1)` -/
example : (1 : Matrix (Fin 2) (Fin 2) ℝ).IsSymm ∧ IsUnit (1 : Matrix (Fin 2) (Fin 2) ℝ).det ∧
    0 < (![2, 1] : Fin 2 → ℝ) ⬝ᵥ ![1, 0] ∧ (![1, 0] : Fin 2 → ℝ) ⬝ᵥ ((1 : Matrix (Fin 2) (Fin 2) ℝ) *ᵥ ![1, 0]) ≠ 0 ∧
    ((IterApprox.new (.dfp : IterScheme Num)).initMat none : IterApprox Num 2).getMat =
      ofM (1 : Matrix (Fin 2) (Fin 2) ℝ) := by
  refine ⟨Matrix.isSymm_one, by simp, by simp, by simp, ?_⟩
  show meye = _
  rw [meye_ofM]
  rfl

end Fides
