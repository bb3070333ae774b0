import Verif.Lemmas.Compare
import Verif.Lemmas.Converge
import Verif.Spec.Definite
import Verif.Spec.Bounded

/-! Helper lemmas: proposals of the full-space and two-dimensional solvers on positive definite models without lower bound of the curvature. -/

namespace Fides
open Num Spec
variable {n : ℕ}

/-- the Newton step is not short -/
theorem newton_long {B : Fin n → Fin n → ℝ} (hS : Sym B) (hpd : PD B) {M : ℝ} (hM : 0 < M) (hup : ∀ v, rdot v (rmv B v) ≤ M * rdot v v) (g nv : Fin n → ℝ) (hnv : rmv B nv = -g) :
    rnorm g / M ≤ rnorm nv := by
  have hB : ∀ v, 0 ≤ rdot v (rmv B v) := fun v => by
    rcases eq_or_ne v 0 with rfl | hv
    · rw [zero_rdot]
    · exact (hpd v hv).le
  have hgg : rdot (rmv B nv) (rmv B nv) = rnorm g * rnorm g := by rw [hnv, rnorm_sq, neg_rdot, rdot_neg, neg_neg]
  have h1 := psd_image hS hB hup nv
  rw [hgg] at h1
  have h2 := hup nv
  rw [← rnorm_sq nv] at h2
  have hn0 := rnorm_nonneg nv
  rw [div_le_iff₀ hM]
  by_contra hcon
  push Not at hcon
  have : (rnorm nv * M) * (rnorm nv * M) < rnorm g * rnorm g := mul_self_lt_mul_self (by positivity) hcon
  nlinarith

/-- a direction from which the gradient differs by little makes a small angle with it -/
theorem near_angle {g nv : Fin n → ℝ} (hnv : nv ≠ 0) {c eps del : ℝ} (hc : rnorm (g - c • nv) ≤ del) (hdel : 8 * del ≤ eps) (hg : eps ≤ rnorm g) :
    3 / 4 * rnorm g ≤ |rdot g ((rnorm nv)⁻¹ • nv)| := by
  set u := (rnorm nv)⁻¹ • nv with hu
  have hn := rnorm_pos hnv
  have hu1 : rnorm u = 1 := rnorm_normalized hnv
  obtain ⟨c', hc'⟩ : ∃ c', c • nv = c' • u := ⟨c * rnorm nv, by rw [hu, smul_smul, mul_assoc, mul_inv_cancel₀ hn.ne', mul_one]⟩
  set r := g - c • nv with hr
  have hgr : g = r + c' • u := by rw [hr, ← hc']; abel
  have hruu : rdot u u = 1 := by rw [← rnorm_sq, hu1]; norm_num
  have e1 : rdot g u = rdot r u + c' := by
    conv_lhs => rw [hgr]
    rw [add_rdot, smul_rdot, hruu, mul_one]
  have h1 : rnorm g ≤ rnorm r + |c'| := by
    conv_lhs => rw [hgr]
    refine (rnorm_add_le _ _).trans ?_
    rw [rnorm_smul, hu1, mul_one]
  have h2 : |rdot r u| ≤ rnorm r := by
    refine abs_le.mpr ⟨?_, ?_⟩
    · have := cauchy_schwarz (-r) u
      rw [neg_rdot, hu1, mul_one, show rnorm (-r) = rnorm r by simp [rnorm, neg_rdot, rdot_neg]] at this
      linarith
    · have := cauchy_schwarz r u
      rw [hu1, mul_one] at this
      exact this
  have h3 : |c'| ≤ |rdot g u| + |rdot r u| := by
    have : c' = rdot g u - rdot r u := by rw [e1]; ring
    rw [this]; exact abs_sub _ _
  linarith

variable {E : Env Num n} {f : (Fin n → ℝ) → ℝ} {g : (Fin n → ℝ) → Fin n → ℝ} {mu eta g1 g2 D0 : ℝ}

/-- proposals of the two solvers -/
theorem definite_step (hE : TRParams E mu eta g1 g2 D0) (hU : NoBounds E.lb E.ub) (O : Oracles Num) (hX : ExactRoutines O) (fuel : ℕ) (sb : StepBackStrategy)
    {dim : SubSpaceDim} (hdim : dim = .two ∨ dim = .full) (st : St Num n) (x : Fin n → ℝ) (D : ℝ) (hx : st.x = ofV x) (hg : st.grad = ofV (g x)) (hd : st.deltaIter = fin D) (hD : 0 < D)
    (B : Fin n → Fin n → ℝ) (hH : st.hess = ofM B) (hS : Sym B) (hpd : PD B) {M eps : ℝ} (hM : 0 < M) (hup : ∀ v, rdot v (rmv B v) ≤ M * rdot v v) (he : 1 / 562949953421312 ≤ eps)
    (hbig : eps ≤ rnorm (g x)) :
    ∃ step, trustRegion O fuel dim sb (trInput E st) = .ok step ∧ ∃ p, Proposes1 step x (g x) B p ∧ (rnorm p ≤ D ∨ eps / M ≤ rnorm p ∧ rnorm p ≤ D + ballTol) ∧
      quad B (g x) p ≤ -(eps / 2 * min D (eps / (2 * M))) := by
  have hep : 0 < eps := lt_of_lt_of_le (by norm_num) he
  have hgp : 0 < rnorm (g x) := hep.trans_le hbig
  have hg0 : g x ≠ 0 := by
    intro h0
    rw [h0, rnorm_eq_zero.mpr rfl] at hgp; exact lt_irrefl _ hgp
  obtain ⟨th, hP⟩ := unbounded_data hE hU st x (g x) B D hx hg hH hd
  have hn : 0 < n := by
    rcases Nat.eq_zero_or_pos n with h0 | h0
    · subst h0; exact absurd (funext fun i => i.elim0) hg0
    · exact h0
  obtain ⟨nv, hnv⟩ := pd_solve hS hpd (g x)
  have hnl : eps / M ≤ rnorm nv := (div_le_div_of_nonneg_right hbig hM.le).trans (newton_long hS hpd hM hup (g x) nv hnv)
  have hnv0 : nv ≠ 0 := by
    rintro rfl
    rw [rnorm_eq_zero.mpr rfl] at hnl
    have : 0 < eps / M := by positivity
    linarith
  have hmono : -(rnorm (g x) / 2 * min D (rnorm (g x) / (2 * M))) ≤ -(eps / 2 * min D (eps / (2 * M))) := by
    have h1 : min D (eps / (2 * M)) ≤ min D (rnorm (g x) / (2 * M)) := min_le_min le_rfl (div_le_div_of_nonneg_right hbig (by positivity))
    have h2 : 0 ≤ min D (eps / (2 * M)) := le_min hD.le (by positivity)
    have := mul_le_mul (by linarith : eps / 2 ≤ rnorm (g x) / 2) h1 h2 (by linarith)
    linarith
  rw [C51_one_candidate _ _ _ _ _ hU th hP.theta hP.th0]
  obtain ⟨t, ht1, ht2⟩ := cauchy_grad hM hup (g x) hD hgp
  rcases hdim with rfl | rfl
  · obtain ⟨st', k1, p, k2, k3, k4, k5⟩ := two_best hP hU hn hS hpd hD O hX nv hnv hg0
    refine ⟨st', k1, p, k2, ?_, ?_⟩
    · rcases k3 with h | ⟨_, rfl, h⟩
      · exact Or.inl h
      · exact Or.inr ⟨hnl, h⟩
    · by_cases hc : (∃ c : ℝ, g x = c • nv) ∨ ∀ c : ℝ, 1 / 4503599627370496 < rnorm (g x - c • nv)
      · have := k5 hc t 0 (by rw [zero_smul, add_zero]; exact ht1)
        rw [zero_smul, add_zero] at this
        linarith
      · push Not at hc
        obtain ⟨c, hcn⟩ := hc.2
        obtain ⟨s, hs1, hs2⟩ := cauchy_line hM hup (g x) ((rnorm nv)⁻¹ • nv) (rnorm_normalized hnv0) hD hgp (near_angle hnv0 hcn (by linarith) hbig)
        rw [smul_smul] at hs1 hs2
        have := k4 _ hs1
        linarith
  · obtain ⟨st', k1, p, k2, k3, _, k5⟩ := full_best hP hU hn hS hpd hD O hX nv hnv
    refine ⟨st', k1, p, k2, ?_, ?_⟩
    · rcases k3 with h | ⟨_, rfl, h⟩
      · exact Or.inl h
      · exact Or.inr ⟨hnl, h⟩
    · have := k5 _ ht1
      linarith

theorem definite_modelDecrease (hE : TRParams E mu eta g1 g2 D0) (hU : NoBounds E.lb E.ub) (O : ℕ → Oracles Num) (hX : ∀ k, ExactRoutines (O k)) (fuel : ℕ)
    (hO : ∀ k I, E.tr k I = trustRegion (O k) fuel E.opts.subspaceDim E.opts.stepbackStrat I) (hdim : E.opts.subspaceDim = .two ∨ E.opts.subspaceDim = .full)
    {M eps : ℝ} (hM : 0 < M) (he : 1 / 562949953421312 ≤ eps) (hprec : 1 / 33554432 ≤ eps / M) {prev next : St Num n} {cur cur' new : Funout Num n}
    {step : Step Num n} (hp : Pass E prev cur step new next cur') (hB : ∀ x, prev.x = ofV x → PDBoundedSym M prev.hess) :
    ModelDecrease E g 0 (eps / 2) (eps / (2 * M)) (eps / (2 * M)) eps prev step := by
  intro x D hx hg hd hD hbig
  obtain ⟨B, hH, hS, hpd, hup⟩ := hB x hx
  have hpr := hp.proposal
  rw [hO] at hpr
  obtain ⟨step', hs', p, hN, hl, hq⟩ := definite_step (g := g) hE hU (O _) (hX _) fuel E.opts.stepbackStrat hdim
    { prev with iteration := prev.iteration + 1, deltaIter := prev.delta, ticks := prev.ticks + 1 } x D hx hg hd hD B hH hS hpd hM hup he hbig
  rw [hs'] at hpr
  cases hpr
  refine ⟨B, p, hH, fun v => ?_, hN.scaled, by rw [hx]; exact hN.moves, hN.predicts, hq, ?_⟩
  · rw [zero_mul, neg_zero]
    rcases eq_or_ne v 0 with rfl | hv
    · rw [zero_rdot]
    · exact (hpd v hv).le
  · rcases hl with h | ⟨h1, h2⟩
    · exact Or.inl h
    · right
      have e : eps / (2 * M) = eps / M / 2 := by rw [div_div, mul_comm]
      unfold ballTol at h2
      rw [e]
      refine le_min ?_ ?_ <;> linarith

theorem definite_proposes (hE : TRParams E mu eta g1 g2 D0) (hU : NoBounds E.lb E.ub) (O : ℕ → Oracles Num) (hX : ∀ k, ExactRoutines (O k)) (fuel : ℕ)
    (hO : ∀ k I, E.tr k I = trustRegion (O k) fuel E.opts.subspaceDim E.opts.stepbackStrat I)
    (hdim : E.opts.subspaceDim = .two ∨ E.opts.subspaceDim = .full) (H : (Fin n → ℝ) → Fin n → Fin n → ℝ)
    (hHM : ∀ x, Sym (H x) ∧ PD (H x)) (ga : ℝ) (hga0 : 0 < ga) : Proposes E g H ga := by
  intro st1 x D hx hg hH hd hDp hgr
  have hg0 : g x ≠ 0 := by
    intro h0
    rw [h0, rnorm_eq_zero.mpr rfl] at hgr; linarith
  obtain ⟨nv, hnv⟩ := pd_solve (hHM x).1 (hHM x).2 (g x)
  obtain ⟨step, hs, p, hN⟩ := newton_step (g := g) hE hU (O st1.proposals) (hX _) fuel E.opts.stepbackStrat hdim
    (preIter { st1 with ticks := st1.ticks + 1 }) x D hx hg hd hDp (H x) hH (hHM x).1 (hHM x).2 hg0 nv hnv
  exact ⟨step, p, by rw [hO]; exact hs, by rw [trialPoint, hx]; exact hN.trial⟩

theorem definiteConst (L M eps : ℝ) (hL : 0 < L) (hM : 0 < M) (he : 0 < eps) :
    CountConst mu (eps / 2) (eps / (2 * M)) (eps / (2 * M)) ((L + 0) / 2) (min (eps / (2 * M)) ((1 - mu) * eps / L)) := by
  refine ⟨by positivity, by positivity, by positivity, by positivity, ?_⟩
  have e1 : (1 - mu) * (eps / 2) / ((L + 0) / 2) = (1 - mu) * eps / L := by
    rw [add_zero]; field_simp
  rw [e1, ← min_assoc, min_self]

theorem definiteBound_eq (L M gap eps : ℝ) : definiteBound mu g1 g2 D0 L M gap eps = passBound g1 g2 D0 gap
    (min D0 (min g1 (1 / 4) * min (eps / (2 * M)) ((1 - mu) * eps / L)))
    (mu * (eps / 2 * min (min D0 (min g1 (1 / 4) * min (eps / (2 * M)) ((1 - mu) * eps / L))) (eps / (2 * M)))) := rfl

end Fides
