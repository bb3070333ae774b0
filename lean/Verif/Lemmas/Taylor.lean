import Verif.Spec.Local
import Verif.Lemmas.Quadratic
import Mathlib.Analysis.Calculus.Deriv.MeanValue
import Mathlib.Analysis.Calculus.Deriv.Pow
import Mathlib.Analysis.Calculus.Deriv.Mul

/-! Helper lemmas: Taylor estimates around a minimum with positive curvature, and the error of Newton's step. -/

namespace Fides
open Num Spec
variable {n : ℕ}

theorem growth_le (φ φ' : ℝ → ℝ) (K : ℝ) (k : ℕ) (hd : ∀ t ∈ Set.Icc (0 : ℝ) 1, HasDerivAt φ (φ' t) t) (hb : ∀ t ∈ Set.Icc (0 : ℝ) 1, φ' t ≤ K * t ^ k) :
    φ 1 - φ 0 ≤ K / (k + 1) := by
  have hk : ((k : ℝ) + 1) ≠ 0 := by positivity
  let ψ : ℝ → ℝ := fun t => φ t - K / (k + 1) * t ^ (k + 1)
  have hψ : ∀ t ∈ Set.Icc (0 : ℝ) 1, HasDerivAt ψ (φ' t - K * t ^ k) t := by
    intro t ht
    have h2 : HasDerivAt (fun u : ℝ => K / (k + 1) * u ^ (k + 1)) (K * t ^ k) t := by
      have h := (hasDerivAt_pow (k + 1) t).const_mul (K / (k + 1))
      have e : K / (k + 1) * (((k + 1 : ℕ) : ℝ) * t ^ (k + 1 - 1)) = K * t ^ k := by
        rw [Nat.add_sub_cancel]; push_cast; field_simp
      rwa [e] at h
    exact (hd t ht).sub h2
  have hanti : AntitoneOn ψ (Set.Icc 0 1) := by
    refine antitoneOn_of_deriv_nonpos (convex_Icc 0 1) (fun t ht => (hψ t ht).continuousAt.continuousWithinAt) (fun t ht => ?_) (fun t ht => ?_)
    · rw [interior_Icc] at ht
      exact (hψ t ⟨ht.1.le, ht.2.le⟩).differentiableAt.differentiableWithinAt
    · rw [interior_Icc] at ht
      rw [(hψ t ⟨ht.1.le, ht.2.le⟩).deriv]
      have := hb t ⟨ht.1.le, ht.2.le⟩
      linarith
  have h1 := hanti (Set.left_mem_Icc.mpr zero_le_one) (Set.right_mem_Icc.mpr zero_le_one) zero_le_one
  simp only [ψ] at h1
  rw [one_pow, zero_pow (Nat.succ_ne_zero k)] at h1
  linarith

theorem growth_abs (φ φ' : ℝ → ℝ) (K : ℝ) (k : ℕ) (hd : ∀ t ∈ Set.Icc (0 : ℝ) 1, HasDerivAt φ (φ' t) t) (hb : ∀ t ∈ Set.Icc (0 : ℝ) 1, |φ' t| ≤ K * t ^ k) :
    |φ 1 - φ 0| ≤ K / (k + 1) := by
  rw [abs_le]
  have h1 := growth_le φ φ' K k hd fun t ht => (le_abs_self _).trans (hb t ht)
  have h2 := growth_le (fun t => -φ t) (fun t => -φ' t) K k (fun t ht => (hd t ht).neg) fun t ht => (neg_le_abs _).trans (hb t ht)
  constructor <;> linarith

/-- moving the base point of a directional derivative -/
theorem deriv_along (φ : (Fin n → ℝ) → ℝ) (x s : Fin n → ℝ) (t d : ℝ) (h : HasDerivAt (fun u : ℝ => φ (x + t • s + u • s)) d 0) :
    HasDerivAt (fun u : ℝ => φ (x + u • s)) d t := by
  have h2 : HasDerivAt (fun u : ℝ => u - t) 1 t := (hasDerivAt_id t).sub_const t
  have h3 : HasDerivAt (fun u : ℝ => φ (x + t • s + u • s)) d (t - t) := by rw [sub_self]; exact h
  have h4 := HasDerivAt.comp (h := fun u : ℝ => u - t) (h₂ := fun u : ℝ => φ (x + t • s + u • s)) t h3 h2
  rw [mul_one] at h4
  refine h4.congr_of_eventuallyEq (Filter.Eventually.of_forall fun u => ?_)
  simp only [Function.comp]
  congr 1
  rw [add_assoc, ← add_smul]; congr 2; ring

section
variable {r m L : ℝ} {f : (Fin n → ℝ) → ℝ} {g : (Fin n → ℝ) → Fin n → ℝ} {H : (Fin n → ℝ) → Fin n → Fin n → ℝ} {xs : Fin n → ℝ}

theorem near_segment {x s : Fin n → ℝ} (hx : rnorm (x - xs) ≤ r) (hy : rnorm (x + s - xs) ≤ r) {t : ℝ} (ht : t ∈ Set.Icc (0 : ℝ) 1) :
    rnorm (x + t • s - xs) ≤ r := by
  have e : x + t • s - xs = (1 - t) • (x - xs) + t • (x + s - xs) := by
    funext i; simp only [Pi.sub_apply, Pi.add_apply, Pi.smul_apply, smul_eq_mul]; ring
  rw [e]
  refine (rnorm_add_le _ _).trans ?_
  rw [rnorm_smul, rnorm_smul, abs_of_nonneg ht.1, abs_of_nonneg (by linarith [ht.2])]
  have h1 := mul_le_mul_of_nonneg_left hx (by linarith [ht.2] : 0 ≤ 1 - t)
  have h2 := mul_le_mul_of_nonneg_left hy ht.1
  linarith

/-- the gradient against a fixed vector -/
theorem Spec.CurvedMinimum.dgrad (hC : CurvedMinimum r m L f g H xs) {x s : Fin n → ℝ} (hx : rnorm (x - xs) ≤ r) (hy : rnorm (x + s - xs) ≤ r) (w : Fin n → ℝ) :
    ∀ t ∈ Set.Icc (0 : ℝ) 1, HasDerivAt (fun u : ℝ => rdot w (g (x + u • s))) (rdot w (rmv (H (x + t • s)) s)) t := by
  intro t ht
  have h : ∀ i ∈ Finset.univ, HasDerivAt (fun u : ℝ => w i * g (x + u • s) i) (w i * rmv (H (x + t • s)) s i) t := by
    intro i _
    have h1 := hC.hessian (x + t • s) (near_segment hx hy ht) s i
    exact (deriv_along (fun z => g z i) x s t _ h1).const_mul (w i)
  have := HasDerivAt.fun_sum h
  simpa only [rdot] using this

theorem Spec.CurvedMinimum.taylor_grad (hC : CurvedMinimum r m L f g H xs) {x s : Fin n → ℝ} (hx : rnorm (x - xs) ≤ r) (hy : rnorm (x + s - xs) ≤ r) (w : Fin n → ℝ) :
    |rdot w (g (x + s)) - rdot w (g x) - rdot w (rmv (H x) s)| ≤ L / 2 * (rnorm s * rnorm s) * rnorm w := by
  have h := growth_abs (fun t => rdot w (g (x + t • s)) - t * rdot w (rmv (H x) s)) (fun t => rdot w (rmv (H (x + t • s)) s) - rdot w (rmv (H x) s))
    (L * (rnorm s * rnorm s) * rnorm w) 1 (fun t ht => by
      have h2 : HasDerivAt (fun u : ℝ => u * rdot w (rmv (H x) s)) (rdot w (rmv (H x) s)) t := by
        simpa using (hasDerivAt_id t).mul_const (rdot w (rmv (H x) s))
      exact (hC.dgrad hx hy w t ht).sub h2) (fun t ht => by
      rw [← rdot_sub]
      have h1 := hC.lipschitz x (x + t • s) hx (near_segment hx hy ht) s
      rw [add_sub_cancel_left, rnorm_smul, abs_of_nonneg ht.1] at h1
      refine (abs_rdot_le _ _).trans ((mul_le_mul_of_nonneg_left h1 (rnorm_nonneg w)).trans (le_of_eq ?_))
      rw [pow_one]; ring)
  simp only [one_smul, zero_smul, add_zero, one_mul, zero_mul, sub_zero] at h
  have e : rdot w (g (x + s)) - rdot w (rmv (H x) s) - rdot w (g x) = rdot w (g (x + s)) - rdot w (g x) - rdot w (rmv (H x) s) := by ring
  rw [e] at h
  refine h.trans (le_of_eq ?_)
  norm_num; ring

/-- the model is exact up to third order -/
theorem Spec.CurvedMinimum.taylor_value (hC : CurvedMinimum r m L f g H xs) {x s : Fin n → ℝ} (hx : rnorm (x - xs) ≤ r) (hy : rnorm (x + s - xs) ≤ r) :
    |f (x + s) - f x - quad (H x) (g x) s| ≤ L / 6 * (rnorm s * rnorm s * rnorm s) := by
  have hd : ∀ t ∈ Set.Icc (0 : ℝ) 1, HasDerivAt (fun u : ℝ => f (x + u • s)) (rdot (g (x + t • s)) s) t := fun t ht =>
    deriv_along f x s t _ (hC.gradient (x + t • s) (near_segment hx hy ht) s)
  have h := growth_abs (fun t => f (x + t • s) - (t * rdot (g x) s + t ^ 2 * (rdot s (rmv (H x) s) / 2)))
    (fun t => rdot (g (x + t • s)) s - (rdot (g x) s + t * rdot s (rmv (H x) s)))
    (L / 2 * (rnorm s * rnorm s * rnorm s)) 2 (fun t ht => by
      have h2 : HasDerivAt (fun u : ℝ => u * rdot (g x) s + u ^ 2 * (rdot s (rmv (H x) s) / 2)) (rdot (g x) s + t * rdot s (rmv (H x) s)) t := by
        have h3 : HasDerivAt (fun u : ℝ => u * rdot (g x) s) (rdot (g x) s) t := by
          simpa using (hasDerivAt_id t).mul_const (rdot (g x) s)
        have h4 : HasDerivAt (fun u : ℝ => u ^ 2 * (rdot s (rmv (H x) s) / 2)) (t * rdot s (rmv (H x) s)) t := by
          have h5 := (hasDerivAt_pow 2 t).mul_const (rdot s (rmv (H x) s) / 2)
          have e : ((2 : ℕ) : ℝ) * t ^ (2 - 1) * (rdot s (rmv (H x) s) / 2) = t * rdot s (rmv (H x) s) := by norm_num; ring
          rwa [e] at h5
        exact h3.add h4
      exact (hd t ht).sub h2) (fun t ht => by
      have hyt : rnorm (x + t • s - xs) ≤ r := near_segment hx hy ht
      have h1 := hC.taylor_grad hx hyt s
      rw [rmv_smul, rdot_smul, rnorm_smul, abs_of_nonneg ht.1] at h1
      have e : rdot (g (x + t • s)) s - (rdot (g x) s + t * rdot s (rmv (H x) s)) = rdot s (g (x + t • s)) - rdot s (g x) - t * rdot s (rmv (H x) s) := by
        rw [rdot_comm s (g (x + t • s)), rdot_comm s (g x)]; ring
      rw [e]
      refine h1.trans (le_of_eq ?_)
      ring)
  simp only [one_smul, zero_smul, add_zero, one_mul, zero_mul, one_pow, sub_zero, ne_eq, OfNat.ofNat_ne_zero, not_false_eq_true, zero_pow] at h
  have e : f (x + s) - (rdot (g x) s + rdot s (rmv (H x) s) / 2) - f x = f (x + s) - f x - quad (H x) (g x) s := by rw [quad_def]; ring
  rw [e] at h
  refine h.trans (le_of_eq ?_)
  norm_num; ring

/-- growth of the gradient away from the minimum -/
theorem Spec.CurvedMinimum.strong (hC : CurvedMinimum r m L f g H xs) {x : Fin n → ℝ} (hx : rnorm (x - xs) ≤ r) :
    m * rnorm (x - xs) ≤ rnorm (g x) := by
  have hr : 0 ≤ r := (rnorm_nonneg _).trans hx
  have hxs : rnorm (xs - xs) ≤ r := by rw [sub_self, rnorm_eq_zero.mpr rfl]; exact hr
  set s := x - xs with hs
  have hy : rnorm (xs + s - xs) ≤ r := by rw [add_sub_cancel_left]; exact hx
  have h := growth_le (fun u => -(rdot s (g (xs + u • s)))) (fun u => -(rdot s (rmv (H (xs + u • s)) s))) (-(m * rdot s s)) 0
    (fun u hu => (hC.dgrad hxs hy s u hu).neg) (fun u hu => by
      rw [pow_zero, mul_one]
      have := hC.curved _ (near_segment hxs hy hu) s
      linarith)
  simp only [one_smul, zero_smul, add_zero, hC.stationary, rdot_zero] at h
  have e : xs + s = x := by rw [hs, add_sub_cancel]
  rw [e] at h
  norm_num at h
  have h2 := cauchy_schwarz s (g x)
  rw [← rnorm_sq] at h
  rcases (rnorm_nonneg s).lt_or_eq with hp | h0
  · exact le_of_mul_le_mul_right (by linarith : m * rnorm s * rnorm s ≤ rnorm (g x) * rnorm s) hp
  · rw [← h0, mul_zero]; exact rnorm_nonneg _

/-- growth of the objective away from the minimum -/
theorem Spec.CurvedMinimum.growth (hC : CurvedMinimum r m L f g H xs) {x : Fin n → ℝ} (hx : rnorm (x - xs) ≤ r) :
    m / 2 * (rnorm (x - xs) * rnorm (x - xs)) ≤ f x - f xs := by
  have hr : 0 ≤ r := (rnorm_nonneg _).trans hx
  have hxs : rnorm (xs - xs) ≤ r := by rw [sub_self, rnorm_eq_zero.mpr rfl]; exact hr
  set s := x - xs with hs
  have hy : rnorm (xs + s - xs) ≤ r := by rw [add_sub_cancel_left]; exact hx
  have hgr : ∀ t ∈ Set.Icc (0 : ℝ) 1, t * (m * rdot s s) ≤ rdot (g (xs + t • s)) s := by
    intro t ht
    -- the derivative of `u ↦ s·g(xs + u s)` is at least `m |s|²`; scale the segment
    have hyt : rnorm (xs + t • s - xs) ≤ r := near_segment hxs hy ht
    have h := growth_le (fun u => -(rdot s (g (xs + u • (t • s))))) (fun u => -(rdot s (rmv (H (xs + u • (t • s))) (t • s)))) (-(t * (m * rdot s s))) 0
      (fun u hu => (hC.dgrad hxs hyt s u hu).neg) (fun u hu => by
        rw [rmv_smul, rdot_smul, pow_zero, mul_one]
        have := hC.curved _ (near_segment hxs hyt hu) s
        have := mul_le_mul_of_nonneg_left this ht.1
        linarith)
    simp only [one_smul, zero_smul, add_zero, hC.stationary, rdot_zero] at h
    rw [rdot_comm s] at h
    norm_num at h
    linarith
  have h := growth_le (fun u => -f (xs + u • s)) (fun u => -(rdot (g (xs + u • s)) s)) (-(m * rdot s s)) 1
    (fun u hu => (deriv_along f xs s u _ (hC.gradient _ (near_segment hxs hy hu) s)).neg) (fun u hu => by
      have := hgr u hu
      rw [pow_one]; linarith)
  simp only [one_smul, zero_smul, add_zero] at h
  have e : xs + s = x := by rw [hs, add_sub_cancel]
  rw [e] at h
  rw [rnorm_sq]
  norm_num at h
  linarith

/-- **Newton's step**: the error is squared -/
theorem Spec.CurvedMinimum.newton (hC : CurvedMinimum r m L f g H xs) {x nv : Fin n → ℝ} (hx : rnorm (x - xs) ≤ r) (hnv : rmv (H x) nv = -g x) :
    m * rnorm (x + nv - xs) ≤ L / 2 * (rnorm (x - xs) * rnorm (x - xs)) := by
  have hr : 0 ≤ r := (rnorm_nonneg _).trans hx
  have hneg : xs - x = -(x - xs) := (neg_sub _ _).symm
  have e : rmv (H x) (x + nv - xs) = g (x + (xs - x)) - g x - rmv (H x) (xs - x) := by
    have : x + nv - xs = nv - (xs - x) := by funext i; simp only [Pi.sub_apply, Pi.add_apply]; ring
    rw [this, rmv_sub, hnv, add_sub_cancel, hC.stationary]
    funext i; simp only [Pi.sub_apply, Pi.neg_apply, Pi.zero_apply]; ring
  set y := x + nv - xs with hy
  have h1 := hC.taylor_grad (s := xs - x) hx (by rw [add_sub_cancel, sub_self, rnorm_eq_zero.mpr rfl]; exact hr) y
  have h2 := hC.curved x hx y
  have h3 : rdot y (rmv (H x) y) ≤ L / 2 * (rnorm (x - xs) * rnorm (x - xs)) * rnorm y := by
    rw [e, rdot_sub, rdot_sub]
    have hn : rnorm (xs - x) = rnorm (x - xs) := by rw [hneg, rnorm, rnorm, neg_rdot, rdot_neg, neg_neg]
    rw [hn] at h1
    exact (le_abs_self _).trans h1
  rw [← rnorm_sq] at h2
  rcases (rnorm_nonneg y).lt_or_eq with hp | h0
  · have : m * rnorm y * rnorm y ≤ L / 2 * (rnorm (x - xs) * rnorm (x - xs)) * rnorm y := by linarith
    exact le_of_mul_le_mul_right this hp
  · rw [← h0, mul_zero]
    have := hC.L_nonneg
    have := rnorm_nonneg (x - xs)
    positivity

end

end Fides
