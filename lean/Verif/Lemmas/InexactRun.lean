import Verif.Lemmas.SteihaugRay
import Verif.Lemmas.Convex
import Verif.Spec.Inexact
import Verif.Props.LocalConvergence
import Verif.Props.Convergence

/-! Helper lemmas: passes and runs of the truncated-CG solver near a minimum with positive curvature. -/

namespace Fides
open Num Spec
variable {n : ℕ}

section
variable {r m M L eta R : ℝ} {f : (Fin n → ℝ) → ℝ} {g : (Fin n → ℝ) → Fin n → ℝ} {H : (Fin n → ℝ) → Fin n → Fin n → ℝ} {xs : Fin n → ℝ}

theorem Spec.CurvedMinimum.close' (hC : CurvedMinimum r m L f g H xs) (hR : 0 < R) {x : Fin n → ℝ} (hx : Basin r m R f xs x) : rnorm (x - xs) ≤ R := by
  have h1 := hC.growth hx.1
  have h2 : m / 2 * (rnorm (x - xs) * rnorm (x - xs)) ≤ m / 2 * (R * R) := h1.trans hx.2
  have h3 := le_of_mul_le_mul_left h2 (by have := hC.m_pos; positivity)
  exact abs_le_of_sq_le_sq' (by nlinarith) hR.le |>.2

/-- the gradient near the minimum -/
theorem Spec.CurvedMinimum.grad_le (hC : CurvedMinimum r m L f g H xs) (hM0 : 0 < M)
    (hM : ∀ x, rnorm (x - xs) ≤ r → ∀ v, rdot v (rmv (H x) v) ≤ M * rdot v v) {x : Fin n → ℝ} (hx : rnorm (x - xs) ≤ r) : rnorm (g x) ≤ M * rnorm (x - xs) := by
  have hr : 0 ≤ r := (rnorm_nonneg _).trans hx
  have hxs : rnorm (xs - xs) ≤ r := by rw [sub_self, rnorm_eq_zero.mpr rfl]; exact hr
  set s := x - xs with hs
  have hxe : xs + s = x := by rw [hs, add_sub_cancel]
  have hy : rnorm (xs + s - xs) ≤ r := by rw [add_sub_cancel_left]; exact hx
  have himg : ∀ z, rnorm (z - xs) ≤ r → rnorm (rmv (H z) s) ≤ M * rnorm s := by
    intro z hz
    have h3 := psd_image (hC.symmetric z hz) (fun v => le_trans (mul_nonneg hC.m_pos.le (rdot_self_nonneg v)) (hC.curved z hz v)) (hM z hz) s
    rw [rnorm_le_iff (mul_nonneg hM0.le (rnorm_nonneg _))]
    have h6 := mul_le_mul_of_nonneg_left (hM z hz s) hM0.le
    have h7 := rnorm_sq s
    calc rdot (rmv (H z) s) (rmv (H z) s) ≤ M * (M * rdot s s) := h3.trans h6
      _ = M * rnorm s * (M * rnorm s) := by rw [← h7]; ring
  have h := growth_le (fun u => rdot (g x) (g (xs + u • s))) (fun u => rdot (g x) (rmv (H (xs + u • s)) s)) (rnorm (g x) * (M * rnorm s)) 0
    (fun u hu => hC.dgrad hxs hy (g x) u hu) (fun u hu => by
      rw [pow_zero, mul_one]
      exact (cauchy_schwarz _ _).trans (mul_le_mul_of_nonneg_left (himg _ (near_segment hxs hy hu)) (rnorm_nonneg _)))
  simp only [one_smul, zero_smul, add_zero, hxe, hC.stationary, rdot_zero] at h
  rw [← rnorm_sq] at h
  norm_num at h
  rcases (rnorm_nonneg (g x)).lt_or_eq with hp | h0
  · exact le_of_mul_le_mul_left h hp
  · rw [← h0]; exact mul_nonneg hM0.le (rnorm_nonneg _)

/-- the gradient after a step, by the residual of the model -/
theorem Spec.CurvedMinimum.grad_step (hC : CurvedMinimum r m L f g H xs) {x p : Fin n → ℝ} (hx : rnorm (x - xs) ≤ r) (hy : rnorm (x + p - xs) ≤ r) :
    rnorm (g (x + p)) ≤ rnorm (g x + rmv (H x) p) + L / 2 * (rnorm p * rnorm p) := by
  set w := g (x + p) - (g x + rmv (H x) p) with hw
  have h := (abs_le.mp (hC.taylor_grad hx hy w)).2
  have e : rdot w (g (x + p)) - rdot w (g x) - rdot w (rmv (H x) p) = rdot w w := by
    conv_rhs => rw [hw]
    rw [← hw, rdot_sub, rdot_add]; ring
  rw [e, ← rnorm_sq] at h
  have h1 : rnorm w ≤ L / 2 * (rnorm p * rnorm p) := by
    rcases (rnorm_nonneg w).lt_or_eq with hp | h0
    · exact le_of_mul_le_mul_right h hp
    · rw [← h0]
      exact mul_nonneg (by have := hC.L_nonneg; linarith) (mul_self_nonneg _)
  have e2 : g (x + p) = (g x + rmv (H x) p) + w := by rw [hw]; abel
  have h2 := rnorm_add_le (g x + rmv (H x) p) w
  rw [← e2] at h2
  linarith

end

section
variable {E : Env Num n} {f : (Fin n → ℝ) → ℝ} {g : (Fin n → ℝ) → Fin n → ℝ} {H : (Fin n → ℝ) → Fin n → Fin n → ℝ} {xs : Fin n → ℝ} {r m M L R mu eta g1 g2 D0 : ℝ}

/-- a pass in the basin -/
theorem inexact_pass (hE : TRParams E mu eta g1 g2 D0) (hU : NoBounds E.lb E.ub) (hT : UsesTrustRegion E) (hdim : E.opts.subspaceDim = .steihaug)
    (hev : Evaluates E f g) (hC : CurvedMinimum r m L f g H xs) (hM0 : 0 < M) (hM : ∀ x, rnorm (x - xs) ≤ r → ∀ v, rdot v (rmv (H x) v) ≤ M * rdot v v)
    (hB : InexactSize r m M L eta R) {prev next : St Num n} {cur cur' new : Funout Num n} {step : Step Num n} (hp : Pass E prev cur step new next cur')
    (x : Fin n → ℝ) (D : ℝ) (hx : prev.x = ofV x) (hf : prev.fval = fin (f x)) (hg : prev.grad = ofV (g x))
    (hH : prev.hess = ofM (H x)) (hd : prev.delta = fin D) (hD : 0 < D) (hin : Basin r m R f xs x) (hg0 : g x ≠ 0) :
    ∃ p : Fin n → ℝ, vadd step.ss step.ss0 = ofV p ∧ trialPoint prev step = ofV (x + p) ∧
      next.x = ofV (x + p) ∧ next.fval = fin (f (x + p)) ∧ next.grad = ofV (g (x + p)) ∧ next.trRatio = fin ((f x - f (x + p)) / -quad (H x) (g x) p) ∧
      eta ≤ (f x - f (x + p)) / -quad (H x) (g x) p ∧
      f (x + p) < f x ∧ Basin r m R f xs (x + p) ∧ (next.delta = fin D ∨ next.delta = fin (g2 * D)) ∧ m * rnorm p ≤ rnorm (g x) ∧
      (rnorm (g x) < m * D → rnorm (g x + rmv (H x) p) < min (1 / 2) (Real.sqrt (rnorm (g x))) * rnorm (g x)) := by
  have hpr := hp.proposal
  obtain ⟨O, fuel, hO⟩ := hT
  rw [hO, hdim] at hpr
  have hm := hC.m_pos
  have hS := hC.symmetric x hin.1
  have hcv := hC.curved x hin.1
  obtain ⟨th, hP⟩ := unbounded_data hE hU { prev with iteration := prev.iteration + 1, deltaIter := prev.delta, ticks := prev.ticks + 1 } x (g x) (H x) D hx hg hH hd
  rw [C51_one_candidate _ _ _ _ _ hU th hP.theta hP.th0] at hpr
  obtain ⟨p, h1, h2, h3, h4, h5⟩ := stepSteihaug_unbounded hP hU hS hD hM0 (hM x hin.1) hg0 fuel step hpr
  obtain ⟨h6, h7⟩ := stepSteihaug_inexact hP hU hS hD hm hcv hg0 fuel step hpr p h1
  have htr : vadd (vadd prev.x step.s) step.s0 = ofV (x + p) := by rw [hx]; exact h2
  have hneg : quad (H x) (g x) p < 0 := by
    have hgp := rnorm_pos hg0
    have : 0 < rnorm (g x) * min D (rnorm (g x) / M) := mul_pos hgp (lt_min hD (div_pos hgp hM0))
    linarith
  have hp0 : p ≠ 0 := by
    rintro rfl
    rw [quad_def, rdot_zero, rmv_zero, rdot_zero] at hneg
    norm_num at hneg
  have hppos := rnorm_pos hp0
  have hclose := hC.close' hB.pos hin
  -- length and predicted reduction
  have hmp := hcv p
  rw [← rnorm_sq] at hmp
  rw [rdot_add, rdot_comm p (g x)] at h6
  have hlen : m * rnorm p ≤ rnorm (g x) := by
    have h8 := cauchy_schwarz (-g x) p
    rw [neg_rdot, pyrnorm_neg] at h8
    have h9 : m * rnorm p * rnorm p ≤ rnorm (g x) * rnorm p := by nlinarith
    exact le_of_mul_le_mul_right h9 hppos
  have hpred : m / 2 * (rnorm p * rnorm p) ≤ -quad (H x) (g x) p := by
    rw [quad_def]; linarith
  have hgl := hC.grad_le hM0 hM hin.1
  have hMR : M * rnorm (x - xs) ≤ M * R := mul_le_mul_of_nonneg_left hclose hM0.le
  have hpR : rnorm p ≤ M / m * R := by
    rw [div_mul_eq_mul_div, le_div_iff₀ hm]; linarith
  have hnear : rnorm (x + p - xs) ≤ r := by
    have e : x + p - xs = (x - xs) + p := by funext i; simp only [Pi.add_apply, Pi.sub_apply]; ring
    rw [e]
    have := rnorm_add_le (x - xs) p
    have := hB.inside
    linarith
  have hta := hC.taylor_value hin.1 hnear
  have hgood : eta ≤ (f x - f (x + p)) / -quad (H x) (g x) p := by
    have hpos : 0 < -quad (H x) (g x) p := by linarith
    rw [le_div_iff₀ hpos]
    have k1 := (abs_le.mp hta).2
    have a0 : 0 ≤ L * (M * R) := mul_nonneg hC.L_nonneg (mul_pos hM0 hB.pos).le
    have a2 := hB.ratio
    have a1 : L * (m * rnorm p) ≤ L * (M * R) := mul_le_mul_of_nonneg_left (by linarith) hC.L_nonneg
    have a3 : L * rnorm p ≤ 3 * m * (1 - eta) := by
      have : m * (L * rnorm p) ≤ m * (3 * m * (1 - eta)) := by linarith
      exact le_of_mul_le_mul_left this hm
    have he1 : 0 ≤ 1 - eta := by
      by_contra hcon
      push Not at hcon
      nlinarith [mul_pos hm hm]
    have k2 : L / 6 * (rnorm p * rnorm p * rnorm p) ≤ (1 - eta) * (m / 2 * (rnorm p * rnorm p)) := by
      have a4 := mul_le_mul_of_nonneg_right a3 (mul_nonneg hppos.le hppos.le)
      linarith
    have k3 : (1 - eta) * (m / 2 * (rnorm p * rnorm p)) ≤ (1 - eta) * -quad (H x) (g x) p := mul_le_mul_of_nonneg_left hpred he1
    linarith
  have hdec : f (x + p) < f x := by
    have k1 : 0 < (f x - f (x + p)) / -quad (H x) (g x) p := hE.mu_pos.trans (hE.mu_eta.trans_le hgood)
    have k2 := (div_pos_iff_of_pos_right (by linarith : 0 < -quad (H x) (g x) p)).mp k1
    linarith
  obtain ⟨b1, b2, b3, b4, b5⟩ := pass_good hE hU hev hp x p (H x) D hx hf hg hH hd h1 htr h3 hneg hgood
  refine ⟨p, h1, htr, b1, b2, b3, b4, hgood, hdec, ⟨hnear, by linarith [hin.2]⟩, ?_, hlen, h7⟩
  rw [b5]
  split
  · exact Or.inl rfl
  · exact Or.inr rfl

/-- the loop heads after one in the basin -/
theorem inexact_head (hE : TRParams E mu eta g1 g2 D0) (hU : NoBounds E.lb E.ub) (hT : UsesTrustRegion E) (hdim : E.opts.subspaceDim = .steihaug)
    (hR : Returns E f g H) (hC : CurvedMinimum r m L f g H xs) (hM0 : 0 < M) (hM : ∀ x, rnorm (x - xs) ≤ r → ∀ v, rdot v (rmv (H x) v) ≤ M * rdot v v)
    (hB : InexactSize r m M L eta R) (x0 : Fin n → ℝ) (startId : String) (hess0 : Hess0 Num) (st0 : St Num n) (happ : st0.happ = none)
    (ga : ℝ) (hga : E.opts.gatol = fin ga) (hga0 : 0 ≤ ga) (hstart : ga < rnorm (g x0))
    (k : ℕ) (stk : St Num n) (curk : Funout Num n) (xk : Fin n → ℝ) (Dk : ℝ) (hk : LoopHead E (ofV x0) startId hess0 st0 k stk curk)
    (hxk : stk.x = ofV xk) (hdk : stk.delta = fin Dk) (hDk : 0 < Dk) (hin : Basin r m R f xs xk)
    (j : ℕ) (st : St Num n) (cur : Funout Num n) (h : LoopHead E (ofV x0) startId hess0 st0 (k + j) st cur) :
    ∃ (x : Fin n → ℝ) (D : ℝ), st.x = ofV x ∧ st.fval = fin (f x) ∧ st.grad = ofV (g x) ∧ st.hess = ofM (H x) ∧ st.delta = fin D ∧ Dk ≤ D ∧ Basin r m R f xs x := by
  have hev := hR.evaluates
  induction j generalizing st cur with
  | zero =>
    obtain ⟨rfl, rfl⟩ := loopHead_unique E _ startId hess0 st0 k _ _ _ _ hk h
    obtain ⟨-, hf, hg⟩ := head_values hU hev _ startId hess0 st0 k stk curk hk xk hxk
    exact ⟨xk, Dk, hxk, hf, hg, returned_hess hU hR _ startId hess0 st0 happ k stk curk hk xk hxk, hdk, le_rfl, hin⟩
  | succ j ih =>
    obtain ⟨prev, cur0, step, new, hh, hp⟩ := loopHead_pass E _ startId hess0 st0 (k + j) st cur h
    obtain ⟨x, D, h1, h2, h3, h4, h5, h6, h7⟩ := ih prev cur0 hh
    have hD : 0 < D := hDk.trans_le h6
    have hg0 := gnz hga0 (local_live hU hR x0 startId hess0 st0 ga hga hstart (k + j) prev cur0 hh (continues_live E _ _ hp.continues) x h3)
    obtain ⟨p, -, -, a1, a2, a3, -, -, -, a4, a5, -, -⟩ := inexact_pass hE hU hT hdim hev hC hM0 hM hB hp x D h1 h2 h3 h4 h5 hD h7 hg0
    have hH := returned_hess hU hR _ startId hess0 st0 happ (k + (j + 1)) st cur h _ a1
    have hgD : D ≤ g2 * D := by
      have := hE.g2_ge
      nlinarith
    rcases a5 with hd | hd
    · exact ⟨x + p, D, a1, a2, a3, hH, hd, h6, a4⟩
    · exact ⟨x + p, g2 * D, a1, a2, a3, hH, hd, by linarith, a4⟩

end

end Fides
