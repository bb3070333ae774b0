import Verif.Props.TrustBall

/-! Helper lemmas: the Steihaug solver reduces the quadratic model at least as much as the steepest descent direction does
(Cauchy decrease), in exact arithmetic. -/

namespace Fides
open Num Spec
variable {n : ℕ}

section
variable {P : Prob Num n} {x d sg : Fin n → ℝ} {B : Fin n → Fin n → ℝ} {delta theta : ℝ}

/-- exit at the boundary: the better of the two boundary points is at least as good as the one ahead -/
theorem boundary_exit_model (hP : RealProb P x d sg B delta theta) (hS : Sym B) (hdel : 0 < delta) (z r e : Fin n → ℝ)
    (hz : rnorm z < delta) (hr : r = sg + rmv B z) (hre : rdot r e = -rdot r r) (hr0 : r ≠ 0) (t : Num)
    (ht : t = boundarySolution1d P.shess P.sg (ofV e) (ofV z) P.delta * Fides.lit 1)
    (hc : rdot e (rmv B e) ≤ 0 ∨ 0 < rdot e (rmv B e) ∧ delta ≤ rnorm (z + (rdot r r / rdot e (rmv B e)) • e)) :
    ∃ p, subDot [ofV e] [t] = ofV p ∧ ∃ a : ℝ, 0 < a ∧ rnorm (z + a • e) = delta ∧
      quad B sg (z + p) ≤ quad B sg z - a * rdot r r / 2 := by
  have hr2 := rdot_self_pos hr0
  have he : e ≠ 0 := by
    rintro rfl
    rw [rdot_zero] at hre; linarith
  have hzz : rdot z z < delta * delta := by
    rw [← rnorm_sq]; nlinarith [rnorm_nonneg z]
  obtain ⟨t1, t2, t', h1, h2, h3, h4, h5⟩ := boundarySolution1d_fin (B := B) sg e z delta he hzz.le (Or.inl hzz)
  rw [hP.shess, hP.sg, hP.delta, h1, lit_def, fin_mul, Rat.cast_one, mul_one] at ht
  refine ⟨t' • e, by rw [ht, subDot_one], ?_⟩
  have hee := rdot_self_pos he
  -- the root ahead
  have hneg : t1 * t2 < 0 := by
    have := h2 0
    rw [zero_smul, add_zero] at this
    by_contra hcon
    push Not at hcon
    nlinarith [mul_nonneg hee.le hcon]
  obtain ⟨a, ha, hroot, hq, hle⟩ : ∃ a : ℝ, 0 < a ∧ rdot (z + a • e) (z + a • e) = delta * delta ∧
      quad B sg (z + t' • e) ≤ quad B sg (z + a • e) ∧
      ∀ s : ℝ, 0 < s → delta * delta ≤ rdot (z + s • e) (z + s • e) → a ≤ s := by
    rcases lt_trichotomy t1 0 with h | h | h
    · have h' : 0 < t2 := by by_contra hcon; push Not at hcon; nlinarith
      refine ⟨t2, h', by have := h2 t2; rw [sub_self, mul_zero, mul_zero] at this; linarith, h5, fun s hs hd => ?_⟩
      by_contra hcon; push Not at hcon
      have := h2 s
      have : 0 < rdot e e * ((s - t1) * (t2 - s)) := by apply mul_pos hee; apply mul_pos <;> linarith
      nlinarith
    · rw [h] at hneg; linarith
    · have h' : t2 < 0 := by by_contra hcon; push Not at hcon; nlinarith
      refine ⟨t1, h, by have := h2 t1; rw [sub_self, zero_mul, mul_zero] at this; linarith, h4, fun s hs hd => ?_⟩
      by_contra hcon; push Not at hcon
      have := h2 s
      have : 0 < rdot e e * ((t1 - s) * (s - t2)) := by apply mul_pos hee; apply mul_pos <;> linarith
      nlinarith
  refine ⟨a, ha, by rw [rnorm, hroot, Real.sqrt_mul_self hdel.le], hq.trans ?_⟩
  rw [quad_line hS]
  have e1 : rdot e (rmv B z + sg) = -rdot r r := by rw [← hre, hr, rdot_comm, add_comm]
  rw [e1, rdot_comm (rmv B e) e]
  rcases hc with hc | ⟨hc, hfar⟩
  · nlinarith [mul_nonneg (mul_self_nonneg a) (neg_nonneg.mpr hc), mul_pos ha hr2]
  · have hal := hle (rdot r r / rdot e (rmv B e)) (div_pos hr2 hc) (by
      rw [← rnorm_sq]; nlinarith [rnorm_nonneg (z + (rdot r r / rdot e (rmv B e)) • e)])
    rw [le_div_iff₀ hc] at hal
    nlinarith [mul_nonneg ha.le (sub_nonneg.mpr hal)]

/-- the decrease of the first pass of the loop is kept by the later ones -/
theorem steihaugLoop_model (hP : RealProb P x d sg B delta theta) (hS : Sym B) (hdel : 0 < delta) (eps : ℝ) (he : 0 < eps) (k : ℕ)
    (z r e : Fin n → ℝ) (hz : rnorm z < delta) (hr : r = sg + rmv B z) (hre : rdot r e = -rdot r r) (hr0 : r ≠ 0) (o : CGOut Num n)
    (h : steihaugLoop P (fin eps) k (ofV z) (ofV r) (ofV e) = .ok o) :
    ∃ q p, o.ss0 = ofV q ∧ o.ss = ofV p ∧ ∃ a : ℝ, 0 < a ∧ quad B sg (q + p) ≤ quad B sg z - a * rdot r r / 2 ∧
      (rnorm (z + a • e) = delta ∨ 0 < rdot e (rmv B e) ∧ a = rdot r r / rdot e (rmv B e)) := by
  induction k generalizing z r e with
  | zero => cases h
  | succ k ih =>
    have hr2 := rdot_self_pos hr0
    rcases le_or_gt (rdot e (rmv B e)) 0 with hc | hc
    · obtain ⟨t, h1, h2⟩ := cg_exit_curv P B delta eps hP.shess hP.delta k z r e hc
      rw [h1] at h; cases h
      obtain ⟨p, hp, a, ha, hb, hq⟩ := boundary_exit_model hP hS hdel z r e hz hr hre hr0 t h2 (Or.inl hc)
      exact ⟨z, p, rfl, hp, a, ha, hq, Or.inl hb⟩
    rcases le_or_gt delta (rnorm (z + (rdot r r / rdot e (rmv B e)) • e)) with hf | hf
    · obtain ⟨t, h1, h2⟩ := cg_exit_far P B delta eps hP.shess hP.delta k z r e hc hf
      rw [h1] at h; cases h
      obtain ⟨p, hp, a, ha, hb, hq⟩ := boundary_exit_model hP hS hdel z r e hz hr hre hr0 t h2 (Or.inr ⟨hc, hf⟩)
      exact ⟨z, p, rfl, hp, a, ha, hq, Or.inl hb⟩
    have ha : 0 < rdot r r / rdot e (rmv B e) := div_pos hr2 hc
    have hac : rdot r r / rdot e (rmv B e) * rdot e (rmv B e) = rdot r r := by field_simp
    have hq : quad B sg (z + (rdot r r / rdot e (rmv B e)) • e) = quad B sg z - rdot r r / rdot e (rmv B e) * rdot r r / 2 := by
      rw [quad_line hS]
      have e1 : rdot e (rmv B z + sg) = -rdot r r := by rw [← hre, hr, rdot_comm, add_comm]
      rw [e1, rdot_comm (rmv B e) e]
      linear_combination (rdot r r / rdot e (rmv B e) / 2) * hac
    rcases lt_or_ge (rnorm (r + (rdot r r / rdot e (rmv B e)) • rmv B e)) eps with hrp | hrp
    · rw [cg_conv P B delta eps hP.shess hP.delta k z r e hc hf hrp] at h
      cases h
      refine ⟨_, _, rfl, rfl, _, ha, ?_, Or.inr ⟨hc, rfl⟩⟩
      rw [sub_add_cancel, hq]
    · rw [cg_step P B delta eps hP.shess hP.delta k z r e hr0 hc hf hrp] at h
      set a := rdot r r / rdot e (rmv B e) with hadef
      have hrp0 : r + a • rmv B e ≠ 0 := by
        intro h0
        rw [h0, rnorm_eq_zero.mpr rfl] at hrp
        linarith
      have hrd : rdot (r + a • rmv B e) e = 0 := by
        rw [add_rdot, smul_rdot, hre, rdot_comm (rmv B e) e, hac]; ring
      obtain ⟨q, p, h1, h2, b, hb, h3, _⟩ := ih _ _ _ hf (by rw [rmv_add, rmv_smul, hr]; abel)
        (by rw [rdot_add, rdot_neg, rdot_smul, hrd]; ring) hrp0 h
      refine ⟨q, p, h1, h2, a, ha, ?_, Or.inr ⟨hc, rfl⟩⟩
      rw [hq] at h3
      have := mul_nonneg hb.le (rdot_self_nonneg (r + a • rmv B e))
      linarith

/-- Cauchy decrease of the Steihaug solver, before the step is shortened at the bounds -/
theorem steihaugLoop_cauchy (hP : RealProb P x d sg B delta theta) (hS : Sym B) (hdel : 0 < delta) (M : ℝ) (hM : 0 < M)
    (hB : ∀ v, rdot v (rmv B v) ≤ M * rdot v v) (hg : sg ≠ 0) (eps : ℝ) (he : 0 < eps) (k : ℕ) (o : CGOut Num n)
    (h : steihaugLoop P (fin eps) k (ofV 0) (ofV sg) (ofV (-sg)) = .ok o) :
    ∃ q p, o.ss0 = ofV q ∧ o.ss = ofV p ∧ quad B sg (q + p) ≤ -(rnorm sg * min delta (rnorm sg / M) / 2) ∧ rnorm (q + p) ≤ delta := by
  have hz : rnorm (0 : Fin n → ℝ) = 0 := rnorm_eq_zero.mpr rfl
  obtain ⟨q, p, h1, h2, a, ha, h3, h4⟩ := steihaugLoop_model hP hS hdel eps he k 0 sg (-sg) (by rw [hz]; exact hdel)
    (by rw [rmv_zero, add_zero]) (rdot_neg _ _) hg o h
  obtain ⟨q', h5, _, h6⟩ := steihaugLoop_ball hP hdel.le eps k 0 sg (-sg) (Or.inl he) (by rw [hz]; exact hdel.le) o h
  rw [h1, ofV_inj] at h5
  refine ⟨q, p, h1, h2, ?_, by rw [h5]; exact h6 p h2⟩
  have hgp := rnorm_pos hg
  rw [quad_zero, ← rnorm_sq] at h3
  refine h3.trans ?_
  have key : min delta (rnorm sg / M) ≤ a * rnorm sg := by
    rcases h4 with h4 | ⟨h4, h5⟩
    · rw [zero_add, smul_neg, pyrnorm_neg, rnorm_smul, abs_of_pos ha] at h4
      rw [h4]; exact min_le_left _ _
    · refine (min_le_right _ _).trans ?_
      rw [rmv_neg, rdot_neg, neg_rdot, neg_neg] at h4 h5
      rw [h5, ← rnorm_sq, div_le_iff₀ hM, div_mul_eq_mul_div, div_mul_eq_mul_div, le_div_iff₀ h4]
      have := hB sg
      rw [← rnorm_sq] at this
      nlinarith [mul_nonneg hgp.le (sub_nonneg.mpr this)]
  nlinarith [mul_nonneg hgp.le (sub_nonneg.mpr key)]

end

end Fides
