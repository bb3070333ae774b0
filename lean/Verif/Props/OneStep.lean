import Verif.Props.NoIncrease
import Verif.Lemmas.OneVariable
import Verif.Lemmas.NewtonBox
import Verif.Lemmas.ExactRoutines
import Verif.Lemmas.InteriorMath

/-!
# C50, C52 in one variable: proposals are numbers, and the model value of a proposal is not positive

In one variable no step-back candidate is considered, and the direction of the solver is a multiple of the gradient.
-/

namespace Fides
open Num Spec

section
variable {I : TRIn Num 1} {x d g dv : Fin 1 → ℝ} {H : Fin 1 → Fin 1 → ℝ} {delta theta : ℝ}

/-- the base step of the two-dimensional solver in one variable, for any external routines -/
theorem one_two_any {P : Prob Num 1} {sg : Fin 1 → ℝ} {B : Fin 1 → Fin 1 → ℝ} (hP : RealProb P x d sg B delta theta) (hS : Sym B) (hdel : 0 < delta)
    (hg : sg ≠ 0) (hB0 : B 0 0 ≠ 0) (O : Oracles Num) (st : Step Num 1) (h : step2d O P = .ok st) : OneBase P x d sg B delta st := by
  have hsg0 : sg 0 ≠ 0 := by
    intro h; apply hg; funext i; rw [Subsingleton.elim i 0, h]; rfl
  unfold step2d at h
  cases hc : subspace2d O P with
  | error e => rw [hc] at h; cases h
  | ok r =>
    obtain ⟨cols, pd, nw⟩ := r
    rw [hc] at h
    have hcols : cols = [ofV fun i => -sg i / B i i] := by
      unfold subspace2d at hc
      split at hc
      · cases hc
      · split at hc
        · cases hc
        · simp only [if_true] at hc
          cases hc
          rw [hP.shess, hP.sg]
          congr 1
          funext i
          rw [Subsingleton.elim i 0]
          simp only [ofV_apply, ofM_apply, fin_neg]
          rw [fin_div _ _ hB0]
    obtain ⟨st', h1, h2⟩ := one_calculate hP hS hdel hg O.sub { Step.init P .twoD cols with posdef := pd, newton := nw } rfl rfl rfl (fun i => -sg i / B i i)
      (by
        intro h
        have h1 := congrFun h 0
        simp only [Pi.zero_apply, div_eq_zero_iff, neg_eq_zero] at h1
        exact h1.elim hsg0 hB0) hcols
    simp only at h
    rw [h1] at h
    cases h
    exact h2

/-- the base step in one variable is the minimizer on the interval, shortened at the bounds -/
theorem one_base (hI : RealData I x d g dv H delta theta) (hdel : 0 < delta) (h0 : 0 < theta) (h1 : theta ≤ 1) (hbox : InBox I.lb I.ub x)
    (hg : d 0 * g 0 ≠ 0) (O : Oracles Num) (fuel : ℕ) {dim : SubSpaceDim} (hdim : dim = .two → d 0 * H 0 0 * d 0 + |g 0| * dv 0 ≠ 0)
    {strat : StepBackStrategy} {best : Step Num 1} (h : trustRegion O fuel dim strat I = .ok best) :
    OneBase I.prob x d (fun i => d i * g i) (fun i j => d i * H i j * d j + if i = j then |g i| * dv i else 0) delta best := by
  have hP := RealData.prob hI h0 h1 hbox
  have hS := sym_scaled d (fun i => |g i| * dv i) hI.sym
  have hsg : (fun i => d i * g i) ≠ 0 := fun h => hg (congrFun h 0)
  have hst := one_candidate O fuel dim strat best h
  cases dim with
  | two => exact one_two_any hP hS hdel hsg (by simpa using hdim rfl) O best hst
  | full =>
    obtain ⟨st, h2, h3⟩ := one_full hP hS hdel hsg O
    have hst' : stepFull O I.prob = .ok best := hst
    rw [hst'] at h2
    cases h2
    exact h3
  | steihaug => exact one_steihaug hP hS hdel hsg fuel best hst
  | other => cases hst

/-- **C50 in one variable.** Let the data of a proposal be finite (feasible current point, positive radius, nonzero scaled gradient).  Then the predicted
value of the proposal that is used is a number `≤ 0`, and `< 0` at a point strictly inside the bounds, for every solver, strategy and external routine (cut
at the bounds or not); the default solver needs a scaled Hessian that is not exactly zero (C52). -/
theorem C50_one (hI : RealData I x d g dv H delta theta) (hdel : 0 < delta) (h0 : 0 < theta) (h1 : theta ≤ 1) (hbox : InBox I.lb I.ub x)
    (hg : d 0 * g 0 ≠ 0) (O : Oracles Num) (fuel : ℕ) (dim : SubSpaceDim) (hdim : dim = .two → d 0 * H 0 0 * d 0 + |g 0| * dv 0 ≠ 0)
    (strat : StepBackStrategy) (best : Step Num 1) (h : trustRegion O fuel dim strat I = .ok best) :
    ∃ q : ℝ, best.qpval = fin q ∧ q ≤ 0 ∧ (Inside I.lb I.ub x → q < 0) := by
  obtain ⟨st1, t, e1, e2, -, e4, e5, e6, e7, e8⟩ := one_base hI hdel h0 h1 hbox hg O fuel hdim h
  have hsg : (fun i => d i * g i) ≠ 0 := fun h => hg (congrFun h 0)
  obtain ⟨a, -, a0, a1, -, hss, -, -, hcase⟩ := C23_factor I.prob st1 x _ theta e1 e5 hI.theta h0 hbox
  have hss' : best.ss = ofV (a • t • (rnorm fun i => d i * g i)⁻¹ • fun i => d i * g i) := by
    rw [e8]
    show (st1.stepBack I.prob).ss = _
    rw [hss, e4]; funext i
    show fin _ * fin a = _
    rw [fin_mul]; show fin _ = fin _
    rw [fin_inj]; simp only [Pi.smul_apply, smul_eq_mul]; ring
  have hss0 : best.ss0 = ofV 0 := by rw [e8]; exact e2
  refine ⟨quad (fun i j => d i * H i j * d j + if i = j then |g i| * dv i else 0) (fun i => d i * g i) (a • t • (rnorm fun i => d i * g i)⁻¹ • fun i => d i * g i), ?_, ?_, fun hins => ?_⟩
  · have : best.qpval = quadraticForm I.prob.shess I.prob.sg (vadd best.ss best.ss0) := by rw [e8]
    rw [this, hss', hss0, vadd_ofV, add_zero, hI.shess, hI.sg, quadraticForm_ofV]
  · refine short_nonpos _ _ _ a a0 a1 ?_ ?_
    · have := e7 0 (by rw [zero_smul, rnorm_eq_zero.mpr rfl]; exact hdel.le)
      rwa [zero_smul, quad_zero] at this
    · rw [← neg_smul]
      apply e7
      rw [neg_smul, pyrnorm_neg]; exact e6
  · exact line_neg hsg hdel (inside_factor h0 a0 hins hcase) a1 e6 e7

/-- **C52 in one variable.** Under the same conditions the trial point is a real number within the bounds, and the step is not longer than the radius. -/
theorem C52_one (hI : RealData I x d g dv H delta theta) (hdel : 0 < delta) (h0 : 0 < theta) (h1 : theta ≤ 1) (hbox : InBox I.lb I.ub x)
    (hg : d 0 * g 0 ≠ 0) (O : Oracles Num) (fuel : ℕ) (dim : SubSpaceDim) (hdim : dim = .two → d 0 * H 0 0 * d 0 + |g 0| * dv 0 ≠ 0)
    (strat : StepBackStrategy) (best : Step Num 1) (h : trustRegion O fuel dim strat I = .ok best) :
    ∃ y p : Fin 1 → ℝ, vadd (vadd I.x best.s) best.s0 = ofV y ∧ InBox I.lb I.ub y ∧ y 0 = x 0 + d 0 * p 0 ∧ |p 0| ≤ delta ∧ p 0 * (d 0 * g 0) ≤ 0 := by
  obtain ⟨st1, t, e1, e2, e3, e4, e5, e6, e7, e8⟩ := one_base hI hdel h0 h1 hbox hg O fuel hdim h
  have hsg : (fun i => d i * g i) ≠ 0 := fun h => hg (congrFun h 0)
  obtain ⟨a, -, a0, a1, hs, -, -, -, -⟩ := C23_factor I.prob st1 x _ theta e1 e5 hI.theta h0 hbox
  have hs' : best.s = ofV (a • fun i => d i * (t • (rnorm fun i => d i * g i)⁻¹ • fun i => d i * g i) i) := by rw [e8]; exact hs
  have hs0 : best.s0 = ofV 0 := by rw [e8]; exact e3
  have hx : I.x = ofV x := hI.x
  have hy : vadd (vadd I.x best.s) best.s0 = ofV (x + a • fun i => d i * (t • (rnorm fun i => d i * g i)⁻¹ • fun i => d i * g i) i) := by
    rw [hx, hs', hs0, vadd_ofV, vadd_ofV, add_zero]
  refine ⟨_, a • t • (rnorm fun i => d i * g i)⁻¹ • fun i => d i * g i, hy, ?_, ?_, ?_, ?_⟩
  · have hf := cand_feas (RealData.prob hI h0 h1 hbox).x hI.theta h0 h1 hbox O fuel dim best (.base best (one_candidate O fuel dim strat best h))
    intro i
    have h3 := congrFun hy i
    rcases hf.trial i with h4 | ⟨r, h4, h5⟩
    · have h4' : vadd (vadd I.x best.s) best.s0 i = nan := h4
      rw [h3] at h4'; cases h4'
    · have h4' : vadd (vadd I.x best.s) best.s0 i = fin r := h4
      rw [h3] at h4'
      have : (x + a • fun i => d i * (t • (rnorm fun i => d i * g i)⁻¹ • fun i => d i * g i) i) i = r := by
        have h6 : fin _ = fin r := h4'
        rwa [fin_inj] at h6
      rw [this]; exact h5
  · simp only [Pi.add_apply, Pi.smul_apply, smul_eq_mul]; ring
  · have hr : rnorm (a • t • (rnorm fun i => d i * g i)⁻¹ • fun i => d i * g i) ≤ delta := by
      rw [rnorm_smul, abs_of_nonneg a0]
      exact (mul_le_of_le_one_left (rnorm_nonneg _) a1).trans e6
    exact (abs_coord_le _ 0).trans hr
  · have hm := e7 (-t) (by rw [neg_smul, pyrnorm_neg]; exact e6)
    rw [neg_smul] at hm
    have hq : ∀ (B : Fin 1 → Fin 1 → ℝ) (g p : Fin 1 → ℝ), quad B g p ≤ quad B g (-p) → rdot g p ≤ 0 := by
      intro B g p h
      simp only [quad, rdot_neg, neg_rdot, rmv_neg, neg_neg] at h
      linarith
    have := hq _ _ _ hm
    simp only [rdot, Finset.univ_unique, Finset.sum_singleton, Fin.default_eq_zero] at this
    simp only [Pi.smul_apply, smul_eq_mul] at this ⊢
    nlinarith

end

/-- negative curvature in one variable, and a bound that cuts the step -/
noncomputable def lineIn : TRIn Num 1 :=
  { x := ofV fun _ => 0, g := ofV fun _ => 1, hess := ofM fun _ _ => -1, scaling := ofV fun _ => 1, delta := fin 2, dv := ofV fun _ => 0,
    theta := fin (19 / 20), lb := fun _ => fin (-1), ub := fun _ => fin 1 }

/-- the proposal exists, and both theorems apply to it -/
example (strat : StepBackStrategy) : ∃ st, trustRegion exactRoutines 5 .full strat lineIn = .ok st ∧ (∃ q : ℝ, st.qpval = fin q ∧ q < 0) ∧
    ∃ y : Fin 1 → ℝ, vadd (vadd lineIn.x st.s) st.s0 = ofV y ∧ -1 ≤ y 0 ∧ y 0 ≤ 0 := by
  have hI : RealData lineIn (fun _ => 0) (fun _ => 1) (fun _ => 1) (fun _ => 0) (fun _ _ => -1) 2 (19 / 20) :=
    ⟨rfl, rfl, rfl, rfl, rfl, rfl, rfl, fun _ _ => rfl⟩
  have hins : Inside lineIn.lb lineIn.ub (fun _ => 0) := fun i => by constructor <;> simp [lineIn]
  have hbox : InBox lineIn.lb lineIn.ub (fun _ => 0) := fun i => by constructor <;> simp [lineIn]
  have hsg : (fun i => (fun _ : Fin 1 => (1 : ℝ)) i * (fun _ : Fin 1 => (1 : ℝ)) i) ≠ 0 := fun h => by have := congrFun h 0; norm_num at this
  obtain ⟨st, h1, -⟩ := one_full (RealData.prob hI (by norm_num) (by norm_num) hbox) (sym_scaled _ _ hI.sym) (by norm_num) hsg exactRoutines
  have h : trustRegion exactRoutines 5 .full strat lineIn = .ok st := by
    rw [trustRegion, candidates]
    simp only [trStep, h1, lt_irrefl, decide_false, Bool.and_false, Bool.false_eq_true, if_false]
    rfl
  obtain ⟨q, hq, -, hneg⟩ := C50_one hI (by norm_num) (by norm_num) (by norm_num) hbox (by norm_num) exactRoutines 5 .full (by intro h; cases h) strat st h
  obtain ⟨y, p, hy, hin, e1, -, e3⟩ := C52_one hI (by norm_num) (by norm_num) (by norm_num) hbox (by norm_num) exactRoutines 5 .full (by intro h; cases h) strat st h
  refine ⟨st, h, ⟨q, hq, hneg hins⟩, y, hy, ?_, ?_⟩
  · have := (hin 0).1
    simpa [lineIn] using this
  · linarith

end Fides
