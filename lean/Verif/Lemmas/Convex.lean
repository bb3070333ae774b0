import Verif.Spec.Convex
import Verif.Lemmas.Taylor
import Verif.Lemmas.NewtonDecrease

/-! Strongly convex functions. -/

namespace Fides
open Num Spec
variable {n : ℕ} {m M L : ℝ} {f : (Fin n → ℝ) → ℝ} {g : (Fin n → ℝ) → Fin n → ℝ} {H : (Fin n → ℝ) → Fin n → Fin n → ℝ} {xs : Fin n → ℝ}

theorem Spec.StronglyConvex.curved (hS : StronglyConvex m M L f g H) (hs : g xs = 0) (r : ℝ) : CurvedMinimum r m L f g H xs where
  m_pos := hS.m_pos
  L_nonneg := hS.L_nonneg
  stationary := hs
  gradient x _ := hS.gradient x
  hessian x _ := hS.hessian x
  symmetric x _ := hS.symmetric x
  curved x _ := hS.lower x
  lipschitz x y _ _ := hS.lipschitz x y

theorem Spec.StronglyConvex.dgrad (hS : StronglyConvex m M L f g H) (x s w : Fin n → ℝ) (t : ℝ) :
    HasDerivAt (fun u : ℝ => rdot w (g (x + u • s))) (rdot w (rmv (H (x + t • s)) s)) t := by
  have h : ∀ i ∈ Finset.univ, HasDerivAt (fun u : ℝ => w i * g (x + u • s) i) (w i * rmv (H (x + t • s)) s i) t := by
    intro i _
    exact (deriv_along (fun z => g z i) x s t _ (hS.hessian (x + t • s) s i)).const_mul (w i)
  exact HasDerivAt.fun_sum h

theorem Spec.StronglyConvex.image (hS : StronglyConvex m M L f g H) (x v : Fin n → ℝ) : rnorm (rmv (H x) v) ≤ M * rnorm v := by
  have hM : 0 ≤ M := hS.m_pos.le.trans hS.m_le
  have h3 := psd_image (hS.symmetric x) (fun v => le_trans (mul_nonneg hS.m_pos.le (rdot_self_nonneg v)) (hS.lower x v)) (hS.upper x) v
  rw [rnorm_le_iff (mul_nonneg hM (rnorm_nonneg _))]
  have h6 := mul_le_mul_of_nonneg_left (hS.upper x v) hM
  have h7 := rnorm_sq v
  calc rdot (rmv (H x) v) (rmv (H x) v) ≤ M * (M * rdot v v) := h3.trans h6
    _ = M * rnorm v * (M * rnorm v) := by rw [← h7]; ring

theorem Spec.StronglyConvex.smooth (hS : StronglyConvex m M L f g H) : SmoothWith M f g where
  deriv := hS.gradient
  lipschitz x y := by
    set s := y - x with hs
    have hxy : x + s = y := by rw [hs, add_sub_cancel]
    set w := g y - g x with hw
    have h := growth_le (fun u => rdot w (g (x + u • s))) (fun u => rdot w (rmv (H (x + u • s)) s)) (rnorm w * (M * rnorm s)) 0
      (fun u _ => hS.dgrad x s w u) (fun u _ => by
        rw [pow_zero, mul_one]
        exact (le_abs_self _).trans ((abs_le.mpr ⟨by have := cauchy_schwarz (-w) (rmv (H (x + u • s)) s); rw [neg_rdot, rnorm, neg_rdot, rdot_neg, neg_neg, ← rnorm] at this; linarith,
          cauchy_schwarz _ _⟩).trans (mul_le_mul_of_nonneg_left (hS.image _ _) (rnorm_nonneg _))))
    simp only [one_smul, zero_smul, add_zero, hxy] at h
    rw [← rdot_sub, ← hw, ← rnorm_sq] at h
    norm_num at h
    rcases (rnorm_nonneg w).lt_or_eq with hp | h0
    · exact le_of_mul_le_mul_left h hp
    · rw [← h0]; exact mul_nonneg (hS.m_pos.le.trans hS.m_le) (rnorm_nonneg _)

/-- the value exceeds the minimum by at most `|g|² / (2 m)` -/
theorem Spec.StronglyConvex.gap (hS : StronglyConvex m M L f g H) (x y : Fin n → ℝ) : f x - f y ≤ rnorm (g x) * rnorm (g x) / (2 * m) := by
  set s := y - x with hs
  have hxy : x + s = y := by rw [hs, add_sub_cancel]
  have hgr : ∀ t ∈ Set.Icc (0 : ℝ) 1, rdot (g x) s + t * (m * rdot s s) ≤ rdot (g (x + t • s)) s := by
    intro t ht
    have h := growth_le (fun u => -(rdot s (g (x + u • (t • s))))) (fun u => -(rdot s (rmv (H (x + u • (t • s))) (t • s)))) (-(t * (m * rdot s s))) 0
      (fun u _ => (hS.dgrad x (t • s) s u).neg) (fun u hu => by
        rw [rmv_smul, rdot_smul, pow_zero, mul_one]
        have := mul_le_mul_of_nonneg_left (hS.lower (x + u • (t • s)) s) ht.1
        linarith)
    simp only [one_smul, zero_smul, add_zero] at h
    rw [rdot_comm s, rdot_comm s] at h
    norm_num at h
    linarith
  have h := growth_le (fun u => -f (x + u • s) + u * rdot (g x) s) (fun u => -(rdot (g (x + u • s)) s) + rdot (g x) s) (-(m * rdot s s)) 1
    (fun u _ => by
      have h2 : HasDerivAt (fun u : ℝ => u * rdot (g x) s) (rdot (g x) s) u := by simpa using (hasDerivAt_id u).mul_const (rdot (g x) s)
      exact (deriv_along f x s u _ (hS.gradient _ s)).neg.add h2) (fun u hu => by
      have := hgr u hu
      rw [pow_one]; linarith)
  simp only [one_smul, zero_smul, add_zero, zero_mul, one_mul, hxy] at h
  have hm := hS.m_pos
  have hcs := cauchy_schwarz (-g x) s
  rw [neg_rdot, rnorm, neg_rdot, rdot_neg, neg_neg, ← rnorm] at hcs
  rw [le_div_iff₀ (by linarith)]
  rw [← rnorm_sq] at h
  norm_num at h
  have h3 : f x - f y ≤ rnorm (g x) * rnorm s - m / 2 * (rnorm s * rnorm s) := by
    have : -(m * (rnorm s * rnorm s)) / 2 = -(m / 2 * (rnorm s * rnorm s)) := by ring
    linarith
  nlinarith [mul_self_nonneg (rnorm (g x) - m * rnorm s)]

theorem Spec.StronglyConvex.min (hS : StronglyConvex m M L f g H) (hs : g xs = 0) (y : Fin n → ℝ) : f xs ≤ f y := by
  have h := hS.gap xs y
  rw [hs, rnorm_eq_zero.mpr rfl] at h
  norm_num at h
  linarith

theorem Spec.StronglyConvex.growth (hS : StronglyConvex m M L f g H) (hs : g xs = 0) (y : Fin n → ℝ) : m / 2 * (rnorm (y - xs) * rnorm (y - xs)) ≤ f y - f xs :=
  (hS.curved hs (rnorm (y - xs))).growth le_rfl

end Fides
