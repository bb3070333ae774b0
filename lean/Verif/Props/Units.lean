import Verif.Lemmas.UnitsStep
import Verif.Props.Rotation

/-!
# C95: the unit of the objective

Without bounds, the optimizer does not depend on the unit in which the objective is measured.  Modelled code: `Optimizer.minimize` (minimize.py:313-443) with everything it calls,
`trust_region` (trust_region.py:31-199), `TRStep2D`, `TRStepFull` (steps.py:281-345).
-/

namespace Fides
open Num Spec

variable {n : ℕ} {c : ℝ}

/-- **C95.** One call of `trust_region` without bounds, full-space solver, for the gradient `v` and the positive definite Hessian `B` and for `c v` and `c B`: both calls propose the same
displacement (exact, possibly different, linear algebra routines). -/
theorem C95_step (hc : 0 < c) {I I' : TRIn Num n} {x v : Fin n → ℝ} {B : Fin n → Fin n → ℝ} {D : ℝ} (hI : PlainInput I x v B D) (hI' : PlainInput I' x (c • v) (c • B) D)
    (hn : 0 < n) (hpd : PD B) (O O' : Oracles Num) (hX : ExactRoutines O) (hX' : ExactRoutines O') (fuel : ℕ) (sb : StepBackStrategy) :
    ∃ r r' p, trustRegion O fuel .full sb I = .ok r ∧ trustRegion O' fuel .full sb I' = .ok r' ∧ Proposes1 r x v B p ∧ Proposes1 r' x (c • v) (c • B) p := by
  obtain ⟨hb, th, h1, h2, h3, hP⟩ := hI.prob
  obtain ⟨hb', th', h1', h2', h3', hP'⟩ := hI'.prob
  rw [C51_one_candidate _ _ _ _ _ hb th h1 h2, C51_one_candidate _ _ _ _ _ hb' th' h1' h2']
  exact un_full hc hP hP' hb hb' hn hI.sym hpd hI.positive O O' hX hX'

/-- the norm of the part of `v` that is orthogonal to `w` -/
noncomputable def offDirection (v w : Fin n → ℝ) : ℝ := rnorm (v - rdot ((rnorm w)⁻¹ • w) v • (rnorm w)⁻¹ • w)

/-- **C95.** The same for the default (2D) solver, if its test, which drops the gradient from the subspace when its part orthogonal to the Newton step `w` is at most `np.spacing(1) = 2⁻⁵²`,
comes out the same in both units. -/
theorem C95_step_two (hc : 0 < c) {I I' : TRIn Num n} {x v : Fin n → ℝ} {B : Fin n → Fin n → ℝ} {D : ℝ} (hI : PlainInput I x v B D) (hI' : PlainInput I' x (c • v) (c • B) D)
    (hv : v ≠ 0) (hpd : PD B) (O O' : Oracles Num) (hX : ExactRoutines O) (hX' : ExactRoutines O')
    (hT : ∀ w, rmv B w = -v → (2⁻¹ ^ 52 < offDirection v w ↔ 2⁻¹ ^ 52 < c * offDirection v w)) (fuel : ℕ) (sb : StepBackStrategy) :
    ∃ r r' p, trustRegion O fuel .two sb I = .ok r ∧ trustRegion O' fuel .two sb I' = .ok r' ∧ Proposes1 r x v B p ∧ Proposes1 r' x (c • v) (c • B) p := by
  obtain ⟨hb, th, h1, h2, h3, hP⟩ := hI.prob
  obtain ⟨hb', th', h1', h2', h3', hP'⟩ := hI'.prob
  rw [C51_one_candidate _ _ _ _ _ hb th h1 h2, C51_one_candidate _ _ _ _ _ hb' th' h1' h2']
  have e : (2⁻¹ ^ 52 : ℝ) = 1 / 4503599627370496 := by norm_num
  rw [e] at hT
  exact un_two hc hP hP' hb hb' hI.sym hpd hI.positive hv O O' hX hX' hT

section
variable {f f' : (Fin n → ℝ) → ℝ} {g g' : (Fin n → ℝ) → Fin n → ℝ} {H H' : (Fin n → ℝ) → Fin n → Fin n → ℝ} {E E' : Env Num n} {fa fr ga gr : ℝ}
variable (hc : 0 < c) (hM : Multiplies c f g H f' g' H') (h : Returns E f g H) (h' : Returns E' f' g' H') (hfa : E.opts.fatol = fin fa) (hfr : E.opts.frtol = fin fr)
  (hga : E.opts.gatol = fin ga) (hga0 : 0 ≤ ga) (hgr : E.opts.grtol = fin gr) (ho : E'.opts = { E.opts with fatol := fin (c * fa), gatol := fin (c * ga) }) (hk : E'.clock = E.clock)
  (hU : ∀ i, E.lb i = ninf ∧ E.ub i = pinf) (hU' : ∀ i, E'.lb i = ninf ∧ E'.ub i = pinf) (hh : E.opts.history = false)
  (hS : ∀ x, Sym (H x)) (hpd : ∀ x, PD (H x)) {mu eta g1 g2 D0 : ℝ} (hE : TRParams E mu eta g1 g2 D0) (x0 : Fin n → ℝ) (hg : g x0 ≠ 0) (startId : String) (hess0 hess0' : Hess0 Num)
  (O O' : ℕ → Oracles Num) (hX : ∀ k, ExactRoutines (O k)) (hX' : ∀ k, ExactRoutines (O' k)) (tf : ℕ)
include hc hM h h' hfa hfr hga hga0 hgr ho hk hU hU' hh hS hpd hE hg hX hX'

/-- **C95.** A run of a new optimizer without bounds, full-space solver: `minimize` with the objective multiplied by `c > 0` and the absolute tolerances `fatol`, `gatol` multiplied by `c`
is the same run in other units: the same points, radius, decisions, exit flag and counters; values, gradients and Hessians, among them `fval_min` and `grad_min`, are multiplied by `c`.
Positive definite Hessians, exact (possibly different) linear algebra routines, every step-back strategy and starting point that is not stationary, any fuel. -/
theorem C95_full (hO : ∀ k I, E.tr k I = trustRegion (O k) tf .full E.opts.stepbackStrat I)
    (hO' : ∀ k I, E'.tr k I = trustRegion (O' k) tf .full E.opts.stepbackStrat I) (fuel : ℕ) :
    (∃ s s', minimize E fuel (ofV x0) startId hess0 (St.new E.opts none) = .ok s ∧
      minimize E' fuel (ofV x0) startId hess0' (St.new E'.opts none) = .ok s' ∧ StTimes c s s') ∨
    ∃ s s', minimize E fuel (ofV x0) startId hess0 (St.new E.opts none) = .error (.diverges, s) ∧
      minimize E' fuel (ofV x0) startId hess0' (St.new E'.opts none) = .error (.diverges, s') ∧ StTimes c s s' := by
  obtain rfl : f' = fun x => c * f x := funext hM.value
  obtain rfl : g' = fun x => c • g x := by funext x i; exact hM.grad x i
  obtain rfl : H' = fun x => c • H x := by funext x i j; exact hM.hess x i j
  have hn : 0 < n := by
    rcases Nat.eq_zero_or_pos n with h0 | h0
    · subst h0; exact absurd (funext fun i => i.elim0) hg
    · exact h0
  refine (un_minimize (c := c) (f := f) (g := g) (H := H) (fa := fa) (fr := fr) (ga := ga) (gr := gr)
    ⟨hc, h, h', ho, hk, hU, hU', hh, hfa, hfr, hga, hga0, hgr, hE.theta, ⟨_, hE.gamma1⟩, ⟨_, hE.gamma2⟩, ⟨_, hE.deltaInit⟩, hS, fun k I I' x D _ hI hI' => ?_⟩ x0 hg startId hess0 hess0' fuel).symm
  rw [hO, hO']
  exact C95_step hc hI hI' hn (hpd x) (O k) (O' k) (hX k) (hX' k) tf _

/-- **C95.** The same with the default (2D) solver, if its test of the part of the gradient that is orthogonal to the Newton step comes out the same in both units at every point. -/
theorem C95_two (hT : ∀ x w, g x ≠ 0 → rmv (H x) w = -g x → (2⁻¹ ^ 52 < offDirection (g x) w ↔ 2⁻¹ ^ 52 < c * offDirection (g x) w))
    (hO : ∀ k I, E.tr k I = trustRegion (O k) tf .two E.opts.stepbackStrat I)
    (hO' : ∀ k I, E'.tr k I = trustRegion (O' k) tf .two E.opts.stepbackStrat I) (fuel : ℕ) :
    (∃ s s', minimize E fuel (ofV x0) startId hess0 (St.new E.opts none) = .ok s ∧
      minimize E' fuel (ofV x0) startId hess0' (St.new E'.opts none) = .ok s' ∧ StTimes c s s') ∨
    ∃ s s', minimize E fuel (ofV x0) startId hess0 (St.new E.opts none) = .error (.diverges, s) ∧
      minimize E' fuel (ofV x0) startId hess0' (St.new E'.opts none) = .error (.diverges, s') ∧ StTimes c s s' := by
  obtain rfl : f' = fun x => c * f x := funext hM.value
  obtain rfl : g' = fun x => c • g x := by funext x i; exact hM.grad x i
  obtain rfl : H' = fun x => c • H x := by funext x i j; exact hM.hess x i j
  refine (un_minimize (c := c) (f := f) (g := g) (H := H) (fa := fa) (fr := fr) (ga := ga) (gr := gr)
    ⟨hc, h, h', ho, hk, hU, hU', hh, hfa, hfr, hga, hga0, hgr, hE.theta, ⟨_, hE.gamma1⟩, ⟨_, hE.gamma2⟩, ⟨_, hE.deltaInit⟩, hS, fun k I I' x D hgx hI hI' => ?_⟩ x0 hg startId hess0 hess0' fuel).symm
  rw [hO, hO']
  exact C95_step_two hc hI hI' hgx (hpd x) (O k) (O' k) (hX k) (hX' k) (hT x · hgx) tf _

end

noncomputable section

/-- a very small unit -/
def tinyU : ℝ := 1 / 2 ^ 60

/-- **C95.** The assumption about the test cannot be dropped: measured in a very large unit (gradient `2⁻⁶⁰ (4, 4)`, Hessian `2⁻⁶⁰ diag(1, 4)`), the default solver searches in the Newton
direction only, and the proposal differs from the one for the same objective in a usual unit (gradient `(4, 4)`, Hessian `diag(1, 4)`). -/
theorem C95_default_can_differ (O O' : Oracles Num) (hX : ExactRoutines O) (hX' : ExactRoutines O') (fuel : ℕ) (sb : StepBackStrategy) :
    ∃ r r' p p', trustRegion O fuel .two sb (planeIn (tinyU • ![4, 4]) (tinyU • ![![1, 0], ![0, 4]])) = .ok r ∧
      trustRegion O' fuel .two sb (planeIn ![4, 4] ![![1, 0], ![0, 4]]) = .ok r' ∧
      Proposes1 r ![7, 7] (tinyU • ![4, 4]) (tinyU • ![![1, 0], ![0, 4]]) p ∧ Proposes1 r' ![7, 7] ![4, 4] ![![1, 0], ![0, 4]] p' ∧ p ≠ p' := by
  have hu : 0 < tinyU := by unfold tinyU; positivity
  have hnvn : rnorm (![-4, -1] : Fin 2 → ℝ) = Real.sqrt 17 := by
    rw [rnorm]; congr 1; simp [rdot, Fin.sum_univ_two]; norm_num
  have hnv : rmv ![![1, 0], ![0, (4 : ℝ)]] ![-4, -1] = -![4, 4] := by funext i; fin_cases i <;> simp [rmv, rdot, Fin.sum_univ_two]
  obtain ⟨hb, th, h1, h2, h3, hP⟩ := (plane_input (tinyU • ![4, 4]) (tinyU • ![![1, 0], ![0, 4]]) (un_sym plane_sym)).prob
  have hs17 : Real.sqrt 17 * Real.sqrt 17 = 17 := Real.mul_self_sqrt (by norm_num)
  have h17 : 1 ≤ Real.sqrt 17 := by rw [Real.one_le_sqrt]; norm_num
  obtain ⟨r, k1, t, k2, k3⟩ := two_drop hP hb (by norm_num) (un_sym plane_sym) (un_pd hu plane_pd) one_pos O hX ![-4, -1] (un_newton hu _ _ _ hnv)
    (by intro h; have := congrFun h 0; simp at this) (by rw [hnvn]; exact h17) (by
      have e : tinyU • ![4, 4] - rdot ((rnorm ![-4, -1])⁻¹ • ![-4, -1]) (tinyU • ![4, 4]) • (rnorm ![-4, -1])⁻¹ • ![-4, -1] = tinyU • ![-12 / 17, 48 / (17 : ℝ)] := by
        rw [hnvn]
        have hne : Real.sqrt 17 ≠ 0 := by linarith
        have hi : (Real.sqrt 17)⁻¹ * (Real.sqrt 17)⁻¹ = 1 / 17 := by rw [← mul_inv, hs17]; norm_num
        funext i
        fin_cases i
        · simp [rdot, Fin.sum_univ_two]
          linear_combination (-80 * tinyU) * hi
        · simp [rdot, Fin.sum_univ_two]
          linear_combination (-20 * tinyU) * hi
      rw [e, un_norm hu]
      have : rnorm ![-12 / 17, 48 / (17 : ℝ)] ≤ 4 := by
        rw [rnorm, Real.sqrt_le_left (by norm_num)]
        simp [rdot, Fin.sum_univ_two]; norm_num
      unfold tinyU
      nlinarith)
  obtain ⟨r', p', q1, q2, -, -, q3⟩ := C85_two (plane_input ![4, 4] ![![1, 0], ![0, 4]] plane_sym) plane_pd (by intro h; have := congrFun h 0; simp at this)
    O' hX' fuel sb ![-4, -1] hnv
  refine ⟨r, r', _, p', ?_, q1, k2, q2, ?_⟩
  · rw [C51_one_candidate _ _ _ _ _ hb th h1 h2]; exact k1
  · rintro rfl
    have q4 := q3 (Or.inr fun c => by
      have ev : (![4, 4] - c • ![-4, -1] : Fin 2 → ℝ) = ![4 + c * 4, 4 + c] := by funext i; fin_cases i <;> simp
      rw [ev]
      have k0 := entry_le_rnorm ![4 + c * 4, 4 + c] 0
      have k1 := entry_le_rnorm ![4 + c * 4, 4 + c] 1
      simp only [Matrix.cons_val_zero, Matrix.cons_val_one] at k0 k1
      rw [abs_le] at k0 k1
      have : (2⁻¹ : ℝ) ^ 52 < 1 := by norm_num
      linarith [k0.1, k0.2, k1.1, k1.2]) (-2 / 15) (1 / 15) (by
        have ev : ((-2 / 15 : ℝ) • ![4, 4] + (1 / 15 : ℝ) • ![-4, -1] : Fin 2 → ℝ) = ![-4 / 5, -3 / 5] := by funext i; fin_cases i <;> simp <;> norm_num
        rw [ev, rnorm, Real.sqrt_le_left (by norm_num)]
        simp [rdot, Fin.sum_univ_two]; norm_num)
    have ev : ((-2 / 15 : ℝ) • ![4, 4] + (1 / 15 : ℝ) • ![-4, -1] : Fin 2 → ℝ) = ![-4 / 5, -3 / 5] := by funext i; fin_cases i <;> simp <;> norm_num
    rw [ev] at q4
    have ea : quad ![![1, 0], ![0, 4]] ![4, 4] ![-4 / 5, -3 / 5] = -(114 / 25 : ℝ) := by simp [quad, rmv, rdot, Fin.sum_univ_two]; norm_num
    have eb : quad ![![1, 0], ![0, 4]] ![4, 4] (t • ![-4, -1]) = -20 * t + 10 * t * t := by simp [quad, rmv, rdot, Fin.sum_univ_two]; ring
    rw [ea, eb] at q4
    rw [rnorm_smul, hnvn] at k3
    have h5 : 17 * (t * t) ≤ 1 := by
      have := mul_self_le_mul_self (by positivity) k3
      rw [mul_mul_mul_comm, hs17, abs_mul_abs_self] at this
      linarith
    have h6 : t ≤ 243 / 1000 := by nlinarith
    nlinarith [mul_nonneg (sub_nonneg.mpr h6) (by linarith : (0 : ℝ) ≤ 20 - 10 * (t + 243 / 1000))]

/-- the assumptions of `C95_full` are met: default options with the full-space solver, a convex function of two variables, measured in a unit that is a thousand times smaller -/
example (O O' : ℕ → Oracles Num) (hX : ∀ k, ExactRoutines (O k)) (hX' : ∀ k, ExactRoutines (O' k)) (x0 : Fin 2 → ℝ) (h0 : x0 ≠ 0) (fuel : ℕ) :
    let E := { plainEnv 2 (tableObj quarticF quarticG quarticH) O with tr := fun k I => trustRegion (O k) 2 .full .reflect I }
    let E' := { plainEnv 2 (tableObj (fun x => 1000 * quarticF x) (fun x => (1000 : ℝ) • quarticG x) fun x => (1000 : ℝ) • quarticH x) O' with
      tr := fun k I => trustRegion (O' k) 2 .full .reflect I, opts := { E.opts with fatol := fin (1000 * (1 / 100000000)), gatol := fin (1000 * (1 / 1000000)) } }
    (∃ s s', minimize E fuel (ofV x0) "0" .hessStr (St.new E.opts none) = .ok s ∧
      minimize E' fuel (ofV x0) "0" .hessStr (St.new E'.opts none) = .ok s' ∧ StTimes 1000 s s') ∨
    ∃ s s', minimize E fuel (ofV x0) "0" .hessStr (St.new E.opts none) = .error (.diverges, s) ∧
      minimize E' fuel (ofV x0) "0" .hessStr (St.new E'.opts none) = .error (.diverges, s') ∧ StTimes 1000 s s' := by
  intro E E'
  have hT : TRParams E (1 / 4) (3 / 4) (1 / 4) 2 1 := by
    have := plain_params 2 (tableObj quarticF quarticG quarticH) O
    exact ⟨this.hmu, this.heta, this.gamma1, this.gamma2, this.deltaInit, this.theta, this.mu_pos, this.mu_lt, this.mu_eta, this.g1_pos, this.g1_lt, this.g2_ge, this.D0_pos⟩
  refine C95_full (c := 1000) (E := E) (E' := E') (f := quarticF) (g := quarticG) (H := quarticH) (fa := 1 / 100000000) (fr := 1 / 100000000) (ga := 1 / 1000000) (gr := 0) (by norm_num) ⟨fun _ => rfl, fun _ _ => rfl, fun _ _ _ => rfl⟩
    ⟨rfl, rfl, fun _ _ => rfl⟩ ⟨rfl, rfl, fun _ _ => rfl⟩ ?_ ?_ ?_ (by norm_num) ?_ rfl rfl (fun _ => ⟨rfl, rfl⟩) (fun _ => ⟨rfl, rfl⟩) ?_ ?_ ?_ hT x0 ?_ "0" .hessStr .hessStr O O' hX hX' 2 ?_ ?_ fuel
  all_goals try (simp only [E, plainEnv, demo_opts]; done)
  · intro x i j
    fin_cases i <;> fin_cases j <;> simp [quarticH]
  · intro x v hv
    have e : rdot v (rmv (quarticH x) v) = (1 + 3 * x 0 ^ 2) * (v 0 * v 0) + 4 * (v 1 * v 1) := by
      simp [quarticH, rmv, rdot, Fin.sum_univ_two]; ring
    rw [e]
    have hne : v 0 ≠ 0 ∨ v 1 ≠ 0 := by
      by_contra hcon
      push Not at hcon
      exact hv (funext fun i => by fin_cases i; exacts [hcon.1, hcon.2])
    have a0 := mul_self_nonneg (v 0)
    have a1 := mul_self_nonneg (v 1)
    have a2 := mul_nonneg (sq_nonneg (x 0)) a0
    rcases hne with h | h
    · have := mul_self_pos.mpr h; nlinarith
    · have := mul_self_pos.mpr h; nlinarith
  · intro hg
    apply h0
    have e0 : x0 0 + x0 0 ^ 3 = 0 := congrFun hg 0
    have e1 : 4 * x0 1 = 0 := congrFun hg 1
    have e2 : x0 0 * (1 + x0 0 ^ 2) = 0 := by linear_combination e0
    have e3 : (1 + x0 0 ^ 2) ≠ 0 := by positivity
    funext i
    fin_cases i
    · exact (mul_eq_zero.mp e2).resolve_right e3
    · show x0 1 = 0
      linarith
  · intro k I; simp only [E, plainEnv, demo_opts]
  · intro k I; simp only [E, E', plainEnv, demo_opts]

end
end Fides
