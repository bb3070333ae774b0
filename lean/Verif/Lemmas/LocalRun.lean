import Verif.Lemmas.Taylor
import Verif.Props.Quadratic

/-! Helper lemmas: passes and runs near a minimum with positive curvature. -/

namespace Fides
open Num Spec
variable {n : ℕ}

section
variable {E : Env Num n} {f : (Fin n → ℝ) → ℝ} {g : (Fin n → ℝ) → Fin n → ℝ} {mu eta g1 g2 D0 : ℝ}

/-- a pass whose model predicts the reduction well -/
theorem pass_good (hE : TRParams E mu eta g1 g2 D0) (hU : NoBounds E.lb E.ub) (hev : Evaluates E f g)
    {prev next : St Num n} {cur cur' new : Funout Num n} {step : Step Num n} (hp : Pass E prev cur step new next cur')
    (x p : Fin n → ℝ) (B : Fin n → Fin n → ℝ) (D : ℝ) (hx : prev.x = ofV x) (hf : prev.fval = fin (f x)) (hg : prev.grad = ofV (g x))
    (hH : prev.hess = ofM B) (hd : prev.delta = fin D)
    (hss : vadd step.ss step.ss0 = ofV p) (htrial : vadd (vadd prev.x step.s) step.s0 = ofV (x + p))
    (hq : step.qpval = fin (quad B (g x) p)) (hneg : quad B (g x) p < 0) (hgood : eta ≤ (f x - f (x + p)) / -quad B (g x) p) :
    next.x = ofV (x + p) ∧ next.fval = fin (f (x + p)) ∧ next.grad = ofV (g (x + p)) ∧ next.trRatio = fin ((f x - f (x + p)) / -quad B (g x) p) ∧
      next.delta = fin (if rnorm p < D * (9 / 10) then D else g2 * D) := by
  have hF := pass_facts E _ _ _ _ _ _ hp
  obtain ⟨hnx, hnf, hng⟩ := pass_evaluates hev hp (x + p) htrial
  have hdv : (trInput E (preIter prev)).dv = ofV 0 := (C51_scaling E (preIter prev) x (g x) B hU hx hg hH).2.1
  have hpos : 0 < -quad B (g x) p := by linarith
  have hrpos : 0 < (f x - f (x + p)) / -quad B (g x) p := hE.mu_pos.trans (hE.mu_eta.trans_le hgood)
  have haug : dot (vadd step.ss step.ss0) (fun i => (trInput E (preIter prev)).dv i * FloatOps.abs (new.grad i) * vadd step.ss step.ss0 i) = fin 0 := by
    rw [hss, hdv, hng]
    have : (fun i => (ofV (0 : Fin n → ℝ) i : Num) * FloatOps.abs (ofV (g (x + p)) i) * ofV p i) = ofV 0 := by
      funext i; simp
    rw [this, dot_ofV, rdot_zero]
  have hrat : ratioOf (afterEval prev step (.ok new)).fval new step (trInput E (preIter prev)).dv = fin ((f x - f (x + p)) / -quad B (g x) p) := by
    unfold ratioOf
    have h1 : (afterEval prev step (.ok new)).fval = fin (f x) := hf
    rw [haug, h1, hnf, hq]
    simp only [fin_neg, lit_def, Rat.cast_zero, fin_le, fin_sub, fin_mul, mul_zero, sub_zero]
    rw [if_neg (by simp only [decide_eq_true_eq]; exact not_le.mpr hpos), fin_div _ _ hpos.ne']
  have had : (afterEval prev step (.ok new)).delta = fin D := hd
  have hadi : (afterEval prev step (.ok new)).deltaIter = fin D := hd
  have hint : lt (norm (vadd step.ss step.ss0)) ((afterEval prev step (.ok new)).deltaIter * Fides.lit (9 / 10)) = decide (rnorm p < D * (9 / 10)) := by
    rw [hadi, hss, norm_ofV, lit_def, fin_mul, fin_lt]
    norm_num
  have hr : (radiusStep E prev step new).1 = true ∧ (radiusStep E prev step new).2.trRatio = fin ((f x - f (x + p)) / -quad B (g x) p) ∧
      (radiusStep E prev step new).2.delta = fin (if rnorm p < D * (9 / 10) then D else g2 * D) := by
    unfold radiusStep
    rcases updateTrRadius_cases E new step (trInput E (preIter prev)).dv (afterEval prev step (.ok new)) with ⟨h, _⟩ | ⟨_, r', hr', h⟩
    · rw [hnf] at h; simp at h
    · rw [hrat] at hr'
      subst hr'
      simp only [hint] at h
      rcases h with ⟨_, h1, h⟩ | ⟨_, h1, h⟩ | ⟨h2, _, m, h⟩
      · rw [h]
        refine ⟨by simpa using hrpos, rfl, ?_⟩
        rw [decide_eq_false_iff_not] at h1
        rw [if_neg h1]
        simp only
        rw [had, hE.gamma2, fin_mul]
      · rw [hE.hmu, fin_le, decide_eq_true_eq] at h1
        exact absurd (hE.mu_eta.trans_le hgood) (not_lt.mpr h1)
      · rw [h]
        refine ⟨by simpa using hrpos, rfl, ?_⟩
        have h3 : rnorm p < D * (9 / 10) := by
          rw [hE.heta, fin_le] at h2
          simpa [hgood] using h2
        rw [if_pos h3]
        exact had
  obtain ⟨h1, h2, h3⟩ := hr
  rcases hF.cases with ⟨_, _, _, h4, h5, h6⟩ | ⟨h4, _⟩
  · exact ⟨by rw [h4, C51_nudge _ _ _ hU, hnx], by rw [h5, hnf], by rw [h6, hng], by rw [hF.ratio, h2], by rw [hF.delta, h3]⟩
  · rw [h1] at h4; cases h4


end

section
variable {r m L eta R : ℝ} {f : (Fin n → ℝ) → ℝ} {g : (Fin n → ℝ) → Fin n → ℝ} {H : (Fin n → ℝ) → Fin n → Fin n → ℝ} {xs : Fin n → ℝ}

theorem Spec.CurvedMinimum.close (hC : CurvedMinimum r m L f g H xs) (hB : BasinSize r m L eta R) {x : Fin n → ℝ} (hx : Basin r m R f xs x) : rnorm (x - xs) ≤ R := by
  have h1 := hC.growth hx.1
  have h2 : m / 2 * (rnorm (x - xs) * rnorm (x - xs)) ≤ m / 2 * (R * R) := h1.trans hx.2
  have h3 := le_of_mul_le_mul_left h2 (by have := hC.m_pos; positivity)
  exact abs_le_of_sq_le_sq' (by nlinarith) hB.pos.le |>.2

/-- Newton's step from the basin -/
theorem Spec.CurvedMinimum.newton_len (hC : CurvedMinimum r m L f g H xs) (hB : BasinSize r m L eta R) {x nv : Fin n → ℝ} (hx : Basin r m R f xs x) (hnv : rmv (H x) nv = -g x) :
    rnorm (x + nv - xs) ≤ rnorm (x - xs) / 4 ∧ rnorm nv ≤ 5 / 4 * rnorm (x - xs) ∧ 3 / 4 * rnorm (x - xs) ≤ rnorm nv := by
  have h0 := hC.newton hx.1 hnv
  have hR := hC.close hB hx
  have hm := hC.m_pos
  have he := rnorm_nonneg (x - xs)
  have h1 : m * rnorm (x + nv - xs) ≤ m * (rnorm (x - xs) / 4) := by
    have a1 : L * rnorm (x - xs) ≤ L * R := mul_le_mul_of_nonneg_left hR hC.L_nonneg
    have a2 := hB.newton
    have a3 : L * rnorm (x - xs) * rnorm (x - xs) ≤ m / 2 * rnorm (x - xs) := mul_le_mul_of_nonneg_right (a1.trans a2) he
    linarith
  have h2 := le_of_mul_le_mul_left h1 hm
  refine ⟨h2, ?_, ?_⟩
  · have e : nv = (x + nv - xs) + (-1 : ℝ) • (x - xs) := by funext i; simp only [Pi.add_apply, Pi.sub_apply, Pi.smul_apply, smul_eq_mul]; ring
    have := rnorm_add_le (x + nv - xs) ((-1 : ℝ) • (x - xs))
    rw [← e, rnorm_smul] at this
    norm_num at this
    linarith
  · have e : x - xs = (x + nv - xs) + (-1 : ℝ) • nv := by funext i; simp only [Pi.add_apply, Pi.sub_apply, Pi.smul_apply, smul_eq_mul]; ring
    have := rnorm_add_le (x + nv - xs) ((-1 : ℝ) • nv)
    rw [← e, rnorm_smul] at this
    norm_num at this
    linarith

end

section
variable {E : Env Num n} {f : (Fin n → ℝ) → ℝ} {g : (Fin n → ℝ) → Fin n → ℝ} {H : (Fin n → ℝ) → Fin n → Fin n → ℝ} {xs : Fin n → ℝ} {r m L R mu eta g1 g2 D0 : ℝ}

/-- a pass in the basin -/
theorem local_pass (hE : TRParams E mu eta g1 g2 D0) (hU : NoBounds E.lb E.ub) (O : ℕ → Oracles Num) (hX : ∀ k, ExactRoutines (O k)) (fuel : ℕ)
    (hO : ∀ k I, E.tr k I = trustRegion (O k) fuel E.opts.subspaceDim E.opts.stepbackStrat I)
    (hdim : E.opts.subspaceDim = .two ∨ E.opts.subspaceDim = .full) (hev : Evaluates E f g) (hC : CurvedMinimum r m L f g H xs) (hB : BasinSize r m L eta R)
    {prev next : St Num n} {cur cur' new : Funout Num n} {step : Step Num n} (hp : Pass E prev cur step new next cur')
    (x : Fin n → ℝ) (D : ℝ) (hx : prev.x = ofV x) (hf : prev.fval = fin (f x)) (hg : prev.grad = ofV (g x))
    (hH : prev.hess = ofM (H x)) (hd : prev.delta = fin D) (hD : 0 < D) (hin : Basin r m R f xs x) (hg0 : g x ≠ 0)
    (nv : Fin n → ℝ) (hnv : rmv (H x) nv = -g x) :
    ∃ p : Fin n → ℝ, vadd step.ss step.ss0 = ofV p ∧ vadd (vadd prev.x step.s) step.s0 = ofV (x + p) ∧
      next.x = ofV (x + p) ∧ next.fval = fin (f (x + p)) ∧ next.grad = ofV (g (x + p)) ∧ next.trRatio = fin ((f x - f (x + p)) / -quad (H x) (g x) p) ∧
      eta ≤ (f x - f (x + p)) / -quad (H x) (g x) p ∧
      f (x + p) < f x ∧ Basin r m R f xs (x + p) ∧ (rnorm nv ≤ D → p = nv) ∧ (D < rnorm nv → next.delta = fin (g2 * D)) ∧
      (next.delta = fin D ∨ next.delta = fin (g2 * D)) := by
  have hpr := hp.proposal
  rw [hO] at hpr
  have hm := hC.m_pos
  have hS := hC.symmetric x hin.1
  have hcv := hC.curved x hin.1
  have hpd : PD (H x) := fun v hv => lt_of_lt_of_le (mul_pos hm (rdot_self_pos hv)) (hcv v)
  obtain ⟨step', hs', p, hN⟩ := newton_step (g := g) hE hU (O _) (hX _) fuel E.opts.stepbackStrat hdim
    { prev with iteration := prev.iteration + 1, deltaIter := prev.delta, ticks := prev.ticks + 1 } x D hx hg hd hD (H x) hH hS hpd hg0 nv hnv
  rw [hs'] at hpr
  cases hpr
  have htr : vadd (vadd prev.x step.s) step.s0 = ofV (x + p) := by rw [hx]; exact hN.trial
  have hneg := hN.negative hpd hnv hg0 hD
  obtain ⟨hl1, hl2, hl3⟩ := hC.newton_len hB hin hnv
  have hclose := hC.close hB hin
  have he := rnorm_nonneg (x - xs)
  -- the step is not longer than Newton's
  have hlen : rnorm p ≤ rnorm nv := by
    by_cases hpn : p = nv
    · rw [hpn]
    · rw [hN.sphere hS hpd hnv hpn]
      by_contra hcon
      exact hpn (hN.inside hS hpd hnv (not_le.mp hcon).le)
  have hp0 : p ≠ 0 := by
    rintro rfl
    rw [quad_def, rdot_zero, rmv_zero, rdot_zero] at hneg
    norm_num at hneg
  have hppos := rnorm_pos hp0
  -- the predicted reduction
  have hpred : m / 2 * (rnorm p * rnorm p) ≤ -quad (H x) (g x) p := by
    have e : rdot (g x) nv = -rdot nv (rmv (H x) nv) := by rw [hnv, rdot_neg, neg_neg, rdot_comm]
    have hb := hcv nv
    rw [← rnorm_sq] at hb
    by_cases hpn : p = nv
    · rw [hpn, quad_def, e]; linarith
    · have hsp := hN.sphere hS hpd hnv hpn
      have hnpos : 0 < rnorm nv := hppos.trans_le hlen
      set t := D / rnorm nv with ht
      have ht0 : 0 < t := div_pos hD hnpos
      have ht1 : t ≤ 1 := by rw [ht, div_le_one hnpos, ← hsp]; exact hlen
      have htn : t * rnorm nv = D := div_mul_cancel₀ _ hnpos.ne'
      have h := hN.best t (by rw [rnorm_smul, abs_of_pos ht0, htn])
      rw [quad_smul, e] at h
      have h1 : t * t / 2 * (m * (rnorm nv * rnorm nv)) ≤ t * t / 2 * rdot nv (rmv (H x) nv) := mul_le_mul_of_nonneg_left hb (by positivity)
      have h2 : t * t / 2 * (m * (rnorm nv * rnorm nv)) = m / 2 * (D * D) := by rw [← htn]; ring
      have h3 : 0 ≤ rdot nv (rmv (H x) nv) := le_trans (by positivity) hb
      have h4 : t * t * rdot nv (rmv (H x) nv) ≤ t * rdot nv (rmv (H x) nv) := mul_le_mul_of_nonneg_right (by nlinarith) h3
      rw [hsp]
      linarith
  -- the actual one
  have hnear : rnorm (x + p - xs) ≤ r := by
    have e : x + p - xs = (x - xs) + p := by funext i; simp only [Pi.add_apply, Pi.sub_apply]; ring
    rw [e]
    have := rnorm_add_le (x - xs) p
    have := hB.inside
    linarith
  have hta := hC.taylor_value hin.1 hnear
  have hgood : eta ≤ (f x - f (x + p)) / -quad (H x) (g x) p := by
    have hpos : 0 < -quad (H x) (g x) p := by linarith
    rw [le_div_iff₀ hpos]
    have h1 := (abs_le.mp hta).2
    have h2 : L / 6 * (rnorm p * rnorm p * rnorm p) ≤ (1 - eta) * (m / 2 * (rnorm p * rnorm p)) := by
      have a1 : L * rnorm p ≤ L * (5 / 4 * R) := mul_le_mul_of_nonneg_left (by linarith) hC.L_nonneg
      have a2 := hB.ratio
      have a0 : 0 ≤ L * R := mul_nonneg hC.L_nonneg hB.pos.le
      have a3 : L / 3 * rnorm p ≤ (1 - eta) * m := by linarith
      have a4 := mul_le_mul_of_nonneg_right a3 (mul_nonneg hppos.le hppos.le)
      linarith
    have h3 : (1 - eta) * (m / 2 * (rnorm p * rnorm p)) ≤ (1 - eta) * -quad (H x) (g x) p := by
      refine mul_le_mul_of_nonneg_left hpred ?_
      have a0 : 0 ≤ L * R := mul_nonneg hC.L_nonneg hB.pos.le
      have a2 := hB.ratio
      by_contra hcon
      push Not at hcon
      nlinarith
    linarith
  have hdec : f (x + p) < f x := by
    have h1 : 0 < (f x - f (x + p)) / -quad (H x) (g x) p := hE.mu_pos.trans (hE.mu_eta.trans_le hgood)
    have h2 := (div_pos_iff_of_pos_right (by linarith : 0 < -quad (H x) (g x) p)).mp h1
    linarith
  obtain ⟨h1, h2, h3, h4, h5⟩ := pass_good hE hU hev hp x p (H x) D hx hf hg hH hd hN.scaled htr hN.model hneg hgood
  refine ⟨p, hN.scaled, htr, h1, h2, h3, h4, hgood, hdec, ⟨hnear, by linarith [hin.2]⟩, fun h => hN.inside hS hpd hnv h, fun h => ?_, ?_⟩
  · rw [h5, if_neg]
    by_cases hpn : p = nv
    · rw [hpn]; linarith
    · rw [hN.sphere hS hpd hnv hpn]; linarith
  · rw [h5]
    split
    · exact Or.inl rfl
    · exact Or.inr rfl

end

end Fides
