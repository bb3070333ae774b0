import Verif.Lemmas.LinAlg
import Verif.Model.Hessian

/-! Lemmas about the model of `hessian_approximation.py` on finite inputs. -/

namespace Fides
open Num Spec
variable {n : ℕ}

/-- the Broyden class update over the reals -/
noncomputable def rbroyden (y s : Fin n → ℝ) (B : Fin n → Fin n → ℝ) (phi : ℝ) : Fin n → Fin n → ℝ :=
  let u := rmv B s
  let c := rdot u s
  let b := rdot y s
  fun i j => y i * y j / b - u i * u j / c + phi * c * ((y i / b - u i / c) * (y j / b - u j / c))

theorem broyden_fin (y s : Fin n → ℝ) (B : Fin n → Fin n → ℝ) (phi : ℝ) (e : Bool)
    (hb : rdot y s ≠ 0) (hc : rdot (rmv B s) s ≠ 0) (he : e = true → 0 < rdot y s) :
    broydenClassUpdate (ofV y) (ofV s) (ofM B) (fin phi) e = ofM (rbroyden y s B phi) := by
  unfold broydenClassUpdate
  simp only [mulVec_ofM, dot_ofV, lit_def, fin_le, Rat.cast_zero]
  have h1 : (decide (rdot y s ≤ 0) && e) = false := by
    cases e with
    | false => simp
    | true => simp only [Bool.and_true, decide_eq_false_iff_not, not_le]; exact he rfl
  simp only [h1, outer_ofV, mdiv_ofM _ _ hb, mdiv_ofM _ _ hc, fin_feq, msub_ofM]
  have hv : (vsub (fun i => ofV y i / fin (rdot y s)) fun i => ofV (rmv B s) i / fin (rdot (rmv B s) s)) =
      ofV (fun i => y i / rdot y s - rmv B s i / rdot (rmv B s) s) := by
    funext i; simp [vsub, hb, hc]
  by_cases hp : phi = 0
  · subst hp
    simp only [decide_true, Bool.not_true, Bool.false_eq_true, if_false]
    funext i j
    simp [rbroyden]
  · simp only [hp, decide_false, Bool.not_false, if_true, Bool.false_eq_true, if_false, hv, outer_ofV, fin_mul,
      msmul_ofM, madd_ofM]
    funext i j
    simp [rbroyden]

theorem broyden_skip (y s : Fin n → ℝ) (B : Mat Num n n) (phi : Num) (hb : rdot y s ≤ 0) :
    broydenClassUpdate (ofV y) (ofV s) B phi true = ofM 0 := by
  unfold broydenClassUpdate
  simp [hb]

theorem rbroyden_secant (y s : Fin n → ℝ) (B : Fin n → Fin n → ℝ) (phi : ℝ)
    (hb : rdot y s ≠ 0) (hc : rdot (rmv B s) s ≠ 0) : rmv (B + rbroyden y s B phi) s = y := by
  have key : rmv (rbroyden y s B phi) s = y - rmv B s := by
    have hv : rdot (fun j => y j / rdot y s - rmv B s j / rdot (rmv B s) s) s = 0 := by
      have : (fun j => y j / rdot y s - rmv B s j / rdot (rmv B s) s) =
          (1 / rdot y s) • y - (1 / rdot (rmv B s) s) • rmv B s := by
        funext j; simp; ring
      rw [this, sub_rdot, smul_rdot, smul_rdot]
      field_simp
      simp
    have e1 : rbroyden y s B phi = (fun i j => y i * y j / rdot y s) - (fun i j => rmv B s i * rmv B s j / rdot (rmv B s) s)
        + (phi * rdot (rmv B s) s) • (fun i j => (y i / rdot y s - rmv B s i / rdot (rmv B s) s) *
          (y j / rdot y s - rmv B s j / rdot (rmv B s) s)) := by
      funext i j; simp [rbroyden]
    rw [e1, add_rmv, sub_rmv, div_rmv (fun i j => y i * y j), div_rmv (fun i j => rmv B s i * rmv B s j),
      smul_rmv, outer_rmv, outer_rmv, outer_rmv, hv]
    funext i
    simp
    field_simp
  rw [add_rmv, key]
  funext i; simp

theorem rbroyden_sym (y s : Fin n → ℝ) (B : Fin n → Fin n → ℝ) (phi : ℝ) : Sym (rbroyden y s B phi) := by
  intro i j; simp only [rbroyden]; ring

theorem quad_rbroyden (y s : Fin n → ℝ) (B : Fin n → Fin n → ℝ) (phi : ℝ) (x : Fin n → ℝ) :
    rdot x (rmv (rbroyden y s B phi) x) =
      rdot y x ^ 2 / rdot y s - rdot (rmv B s) x ^ 2 / rdot (rmv B s) s
        + phi * rdot (rmv B s) s * (rdot y x / rdot y s - rdot (rmv B s) x / rdot (rmv B s) s) ^ 2 := by
  have hv : rdot (fun j => y j / rdot y s - rmv B s j / rdot (rmv B s) s) x
      = rdot y x / rdot y s - rdot (rmv B s) x / rdot (rmv B s) s := by
    have : (fun j => y j / rdot y s - rmv B s j / rdot (rmv B s) s) =
        (1 / rdot y s) • y - (1 / rdot (rmv B s) s) • rmv B s := by
      funext j; simp; ring
    rw [this, sub_rdot, smul_rdot, smul_rdot]; ring
  have e1 : rbroyden y s B phi = (fun i j => y i * y j / rdot y s) - (fun i j => rmv B s i * rmv B s j / rdot (rmv B s) s)
      + (phi * rdot (rmv B s) s) • (fun i j => (y i / rdot y s - rmv B s i / rdot (rmv B s) s) *
        (y j / rdot y s - rmv B s j / rdot (rmv B s) s)) := by
    funext i j; simp [rbroyden]
  rw [e1, add_rmv, sub_rmv, div_rmv (fun i j => y i * y j), div_rmv (fun i j => rmv B s i * rmv B s j),
    smul_rmv, outer_rmv, outer_rmv, outer_rmv, hv, rdot_add, rdot_sub, rdot_smul, rdot_smul, rdot_smul, rdot_smul,
    rdot_smul, rdot_smul, rdot_comm x y, rdot_comm x (rmv B s), rdot_comm x (fun j => _), hv]
  ring

/-- positive definiteness of the updated matrix -/
theorem rbroyden_PD (y s : Fin n → ℝ) (B : Fin n → Fin n → ℝ) (phi : ℝ) (hphi : 0 ≤ phi)
    (hsym : Sym B) (hpd : PD B) (hb : 0 < rdot y s) : PD (B + rbroyden y s B phi) := by
  have hs : s ≠ 0 := by rintro rfl; rw [rdot_zero] at hb; exact lt_irrefl _ hb
  have hc : 0 < rdot (rmv B s) s := by rw [rdot_comm]; exact hpd s hs
  intro x hx
  rw [add_rmv, rdot_add, quad_rbroyden]
  set t := rdot (rmv B s) x / rdot (rmv B s) s with ht
  have hw : rdot (x - t • s) (rmv B (x - t • s)) = rdot x (rmv B x) - rdot (rmv B s) x ^ 2 / rdot (rmv B s) s := by
    rw [rmv_sub, rmv_smul, rdot_sub, sub_rdot, sub_rdot, rdot_smul, smul_rdot, smul_rdot, rdot_smul,
      rdot_comm x (rmv B s), Sym.rdot_rmv hsym s x, rdot_comm s (rmv B s), ht]
    field_simp
    ring
  have h3 : 0 ≤ phi * rdot (rmv B s) s * (rdot y x / rdot y s - t) ^ 2 := by positivity
  by_cases h0 : x - t • s = 0
  · have hxs : x = t • s := sub_eq_zero.mp h0
    have htne : t ≠ 0 := by
      intro h; rw [h, zero_smul] at hxs; exact hx hxs
    have h2 : 0 < rdot y x ^ 2 / rdot y s := by
      have hyx : rdot y x = t * rdot y s := by
        have := congrArg (rdot y) hxs
        rwa [rdot_smul] at this
      rw [hyx]; positivity
    rw [h0, zero_rdot] at hw
    linarith
  · have h1 := hpd _ h0
    rw [hw] at h1
    have h2 : 0 ≤ rdot y x ^ 2 / rdot y s := by positivity
    linarith

end Fides
