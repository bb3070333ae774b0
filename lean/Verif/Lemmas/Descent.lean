import Verif.Spec.Smooth
import Verif.Lemmas.LinAlg
import Mathlib.Analysis.Calculus.Deriv.MeanValue
import Mathlib.Analysis.Calculus.Deriv.Add
import Mathlib.Analysis.Calculus.Deriv.Mul
import Mathlib.Analysis.Calculus.Deriv.Comp
import Mathlib.Analysis.Calculus.Deriv.Pow

/-! Helper lemma: the quadratic upper bound of a function with Lipschitz gradient. -/

namespace Fides.Num
open Spec
variable {n : ℕ}

theorem smooth_upper {L : ℝ} {f : (Fin n → ℝ) → ℝ} {g : (Fin n → ℝ) → Fin n → ℝ} (h : SmoothWith L f g) (x s : Fin n → ℝ) :
    f (x + s) ≤ f x + rdot (g x) s + L / 2 * rdot s s := by
  have hder : ∀ t : ℝ, HasDerivAt (fun u : ℝ => f (x + u • s)) (rdot (g (x + t • s)) s) t := by
    intro t
    have h1 := h.deriv (x + t • s) s
    have h2 : HasDerivAt (fun u : ℝ => u - t) 1 t := (hasDerivAt_id t).sub_const t
    have h3 : HasDerivAt (fun u : ℝ => f (x + t • s + u • s)) (rdot (g (x + t • s)) s) (t - t) := by rw [sub_self]; exact h1
    have h4 := HasDerivAt.comp (h := fun u : ℝ => u - t) (h₂ := fun u : ℝ => f (x + t • s + u • s)) t h3 h2
    rw [mul_one] at h4
    refine h4.congr_of_eventuallyEq (Filter.Eventually.of_forall fun u => ?_)
    simp only [Function.comp]
    congr 1
    rw [add_assoc, ← add_smul]; congr 2; ring
  let φ : ℝ → ℝ := fun t => f (x + t • s) - t * rdot (g x) s - L / 2 * rdot s s * t ^ 2
  have hφ : ∀ t, HasDerivAt φ (rdot (g (x + t • s)) s - rdot (g x) s - L / 2 * rdot s s * (2 * t)) t := by
    intro t
    have h1 := hder t
    have h2 : HasDerivAt (fun u : ℝ => u * rdot (g x) s) (rdot (g x) s) t := by
      simpa using (hasDerivAt_id t).mul_const (rdot (g x) s)
    have h3 : HasDerivAt (fun u : ℝ => L / 2 * rdot s s * u ^ 2) (L / 2 * rdot s s * (2 * t)) t := by
      have := (hasDerivAt_pow 2 t).const_mul (L / 2 * rdot s s)
      simpa using this
    exact (h1.sub h2).sub h3
  have hanti : AntitoneOn φ (Set.Icc 0 1) := by
    refine antitoneOn_of_deriv_nonpos (convex_Icc 0 1) (fun t _ => (hφ t).continuousAt.continuousWithinAt)
      (fun t _ => (hφ t).differentiableAt.differentiableWithinAt) (fun t ht => ?_)
    rw [interior_Icc] at ht
    rw [(hφ t).deriv, ← sub_rdot]
    have h1 := cauchy_schwarz (g (x + t • s) - g x) s
    have h2 := h.lipschitz x (x + t • s)
    rw [add_sub_cancel_left, rnorm_smul, abs_of_pos ht.1] at h2
    have h3 := mul_le_mul_of_nonneg_right h2 (rnorm_nonneg s)
    have h4 := rnorm_sq s
    have h5 : L * (t * rnorm s) * rnorm s = L / 2 * (rnorm s * rnorm s) * (2 * t) := by ring
    rw [h4] at h5
    linarith
  have h1 := hanti (Set.left_mem_Icc.mpr zero_le_one) (Set.right_mem_Icc.mpr zero_le_one) zero_le_one
  simp only [φ, one_smul, zero_smul, add_zero] at h1
  linarith

end Fides.Num
