import Verif.Spec.Bounded
import Verif.Lemmas.Descent

/-! Helper lemma: the quadratic upper bound of a function with Lipschitz gradient in a box. -/

namespace Fides.Num
open Spec
variable {n : ℕ}

theorem inBox_segment {lb ub : Vec Num n} {x y : Fin n → ℝ} (hx : InBox lb ub x) (hy : InBox lb ub y) {t : ℝ} (h0 : 0 ≤ t) (h1 : t ≤ 1) :
    InBox lb ub (x + t • (y - x)) := by
  intro i
  obtain ⟨a1, a2⟩ := hx i
  obtain ⟨b1, b2⟩ := hy i
  simp only [Pi.add_apply, Pi.smul_apply, Pi.sub_apply, smul_eq_mul]
  generalize x i = a at a1 a2
  generalize y i = b at b1 b2
  constructor
  · cases hl : lb i with
    | nan => rw [hl] at a1; simp at a1
    | pinf => rw [hl] at a1; simp at a1
    | ninf => simp
    | fin l =>
      rw [hl] at a1 b1
      simp only [fin_le, decide_eq_true_eq] at a1 b1 ⊢
      nlinarith
  · cases hu : ub i with
    | nan => rw [hu] at a2; simp at a2
    | ninf => rw [hu] at a2; simp at a2
    | pinf => simp
    | fin u =>
      rw [hu] at a2 b2
      simp only [fin_le, decide_eq_true_eq] at a2 b2 ⊢
      nlinarith

theorem smooth_upper_on {L : ℝ} {lb ub : Vec Num n} {f : (Fin n → ℝ) → ℝ} {g : (Fin n → ℝ) → Fin n → ℝ} (h : SmoothOn L lb ub f g) (x y : Fin n → ℝ)
    (hx : InBox lb ub x) (hy : InBox lb ub y) : f y ≤ f x + rdot (g x) (y - x) + L / 2 * rdot (y - x) (y - x) := by
  have hseg : ∀ t ∈ Set.Icc (0 : ℝ) 1, InBox lb ub (x + t • (y - x)) := fun t ht => inBox_segment hx hy ht.1 ht.2
  have hyx : f y = f (x + (1 : ℝ) • (y - x)) := by rw [one_smul, add_sub_cancel]
  rw [hyx]
  generalize y - x = s at hseg
  have hder : ∀ t ∈ Set.Icc (0 : ℝ) 1, HasDerivWithinAt (fun u : ℝ => f (x + u • s)) (rdot (g (x + t • s)) s) (Set.Icc 0 1) t := by
    intro t ht
    have h1 := h.deriv (x + t • s) s (hseg t ht)
    have h2 : HasDerivWithinAt (fun u : ℝ => u - t) 1 (Set.Icc 0 1) t := ((hasDerivAt_id t).sub_const t).hasDerivWithinAt
    have h3 : HasDerivWithinAt (fun u : ℝ => f (x + t • s + u • s)) (rdot (g (x + t • s)) s) {u | InBox lb ub (x + t • s + u • s)} (t - t) := by
      rw [sub_self]; exact h1
    have he : ∀ u : ℝ, x + t • s + (u - t) • s = x + u • s := by
      intro u; rw [add_assoc, ← add_smul]; congr 2; ring
    have h4 := HasDerivWithinAt.comp (h := fun u : ℝ => u - t) (h₂ := fun u : ℝ => f (x + t • s + u • s)) t h3 h2 (fun u hu => by
      show InBox lb ub (x + t • s + (u - t) • s)
      rw [he]; exact hseg u hu)
    rw [mul_one] at h4
    refine h4.congr_of_eventuallyEq (Filter.Eventually.of_forall fun u => ?_) ?_
    · simp only [Function.comp]; rw [he]
    · simp only [Function.comp]; rw [he]
  let φ : ℝ → ℝ := fun t => f (x + t • s) - t * rdot (g x) s - L / 2 * rdot s s * t ^ 2
  have hφ : ∀ t ∈ Set.Icc (0 : ℝ) 1, HasDerivWithinAt φ (rdot (g (x + t • s)) s - rdot (g x) s - L / 2 * rdot s s * (2 * t)) (Set.Icc 0 1) t := by
    intro t ht
    have h1 := hder t ht
    have h2 : HasDerivAt (fun u : ℝ => u * rdot (g x) s) (rdot (g x) s) t := by
      simpa using (hasDerivAt_id t).mul_const (rdot (g x) s)
    have h3 : HasDerivAt (fun u : ℝ => L / 2 * rdot s s * u ^ 2) (L / 2 * rdot s s * (2 * t)) t := by
      have := (hasDerivAt_pow 2 t).const_mul (L / 2 * rdot s s)
      simpa using this
    exact (h1.sub h2.hasDerivWithinAt).sub h3.hasDerivWithinAt
  have hanti : AntitoneOn φ (Set.Icc 0 1) := by
    refine antitoneOn_of_deriv_nonpos (convex_Icc 0 1) (fun t ht => (hφ t ht).continuousWithinAt) (fun t ht => ?_) (fun t ht => ?_)
    · rw [interior_Icc] at ht
      exact ((hφ t ⟨ht.1.le, ht.2.le⟩).hasDerivAt (Icc_mem_nhds ht.1 ht.2)).differentiableAt.differentiableWithinAt
    · rw [interior_Icc] at ht
      rw [((hφ t ⟨ht.1.le, ht.2.le⟩).hasDerivAt (Icc_mem_nhds ht.1 ht.2)).deriv, ← sub_rdot]
      have h1 := cauchy_schwarz (g (x + t • s) - g x) s
      have h2 := h.lipschitz x (x + t • s) hx (hseg t ⟨ht.1.le, ht.2.le⟩)
      rw [add_sub_cancel_left, rnorm_smul, abs_of_pos ht.1] at h2
      have h3 := mul_le_mul_of_nonneg_right h2 (rnorm_nonneg s)
      have h4 := rnorm_sq s
      have h5 : L * (t * rnorm s) * rnorm s = L / 2 * (rnorm s * rnorm s) * (2 * t) := by ring
      rw [h4] at h5
      linarith
  have h1 := hanti (Set.left_mem_Icc.mpr zero_le_one) (Set.right_mem_Icc.mpr zero_le_one) zero_le_one
  simp only [φ, one_smul, zero_smul, add_zero] at h1
  rw [one_smul]
  linarith

end Fides.Num
