import Verif.Lemmas.Saddle
import Verif.Spec.Saddle

/-! Helper lemmas: runs started at points with zero gradient and negative curvature. -/

namespace Fides
open Num Spec
variable {n : ℕ} {E : Env Num n} {f : (Fin n → ℝ) → ℝ} {g : (Fin n → ℝ) → Fin n → ℝ} {H : (Fin n → ℝ) → Fin n → Fin n → ℝ}
variable {mu eta g1 g2 D0 nu M K : ℝ} {x0 : Fin n → ℝ}

/-- the proposal -/
theorem saddle_step (hE : TRParams E mu eta g1 g2 D0) (hU : NoBounds E.lb E.ub) (O : Oracles Num) (hX : ExactRoutines O) (fuel : ℕ) (sb : StepBackStrategy)
    {dim : SubSpaceDim} (hdim : (dim = .two ∧ 1 < n ∧ M / 4503599627370496 ≤ nu) ∨ dim = .full) {R : ℝ} (hN : NotMinimum f g H x0 nu M K R)
    (st : St Num n) (D : ℝ) (hx : st.x = ofV x0) (hg : st.grad = ofV (g x0)) (hH : st.hess = ofM (H x0)) (hd : st.deltaIter = fin D) (hD : 0 < D) :
    ∃ step, trustRegion O fuel dim sb (trInput E st) = .ok step ∧ ∃ p, SaddleStep x0 (H x0) (-nu) D step p := by
  obtain ⟨th, hP⟩ := unbounded_data hE hU st x0 (g x0) (H x0) D hx hg hH hd
  rw [hN.stationary] at hP
  obtain ⟨c, hc, hcn⟩ := hN.negative
  have hn : 0 < n := by
    rcases Nat.eq_zero_or_pos n with h0 | h0
    · subst h0; rw [rdot, Finset.univ_eq_empty, Finset.sum_empty] at hc; norm_num at hc
    · exact h0
  rw [C51_one_candidate _ _ _ _ _ hU th hP.theta hP.th0]
  rcases hdim with ⟨rfl, h1, h2⟩ | rfl
  · exact two_saddle hP hU h1 hN.sym hD O hX c hc hN.nu_pos hcn hN.bounded h2
  · exact full_saddle hP hU hn hN.sym hD O hX c hc hN.nu_pos hcn

/-- one pass -/
theorem saddle_pass (hE : TRParams E mu eta g1 g2 D0) (hU : NoBounds E.lb E.ub) (O : ℕ → Oracles Num) (hX : ∀ k, ExactRoutines (O k)) (fuel : ℕ)
    (hO : ∀ k I, E.tr k I = trustRegion (O k) fuel E.opts.subspaceDim E.opts.stepbackStrat I)
    (hdim : (E.opts.subspaceDim = .two ∧ 1 < n ∧ M / 4503599627370496 ≤ nu) ∨ E.opts.subspaceDim = .full) {R : ℝ} (hN : NotMinimum f g H x0 nu M K R)
    (hev : Evaluates E f g) {prev next : St Num n} {cur cur' new : Funout Num n} {step : Step Num n} (hp : Pass E prev cur step new next cur')
    (D : ℝ) (hx : prev.x = ofV x0) (hf : prev.fval = fin (f x0)) (hg : prev.grad = ofV (g x0)) (hH : prev.hess = ofM (H x0)) (hd : prev.delta = fin D)
    (hD : 0 < D) (hDR : D ≤ R) :
    ∃ p : Fin n → ℝ, vadd step.ss step.ss0 = ofV p ∧ trialPoint prev step = ofV (x0 + p) ∧ rnorm p = D ∧
      (∃ q : ℝ, step.qpval = fin q ∧ q ≤ -nu / 2 * D ^ 2) ∧ new.fval = fin (f (x0 + p)) ∧ new.grad = ofV (g (x0 + p)) ∧ f (x0 + p) ≤ f x0 - nu / 2 * D ^ 2 + K * D ^ 3 ∧
      ((f (x0 + p) < f x0 ∧ next.x = ofV (x0 + p) ∧ next.fval = fin (f (x0 + p))) ∨
        (f x0 ≤ f (x0 + p) ∧ nu ≤ 2 * K * D ∧ next.x = ofV x0 ∧ next.delta = fin (min g1 (1 / 4) * D) ∧ ∃ r : ℝ, next.trRatio = fin r ∧ r ≤ 0)) := by
  have hpr := hp.proposal
  rw [hO] at hpr
  obtain ⟨step', hs', p, hS⟩ := saddle_step hE hU (O _) (hX _) fuel E.opts.stepbackStrat hdim hN
    { prev with iteration := prev.iteration + 1, deltaIter := prev.delta, ticks := prev.ticks + 1 } D hx hg hH hd hD
  rw [hs'] at hpr
  cases hpr
  have htr : vadd (vadd prev.x step.s) step.s0 = ofV (x0 + p) := by rw [hx]; exact hS.trial
  have hF := pass_facts E _ _ _ _ _ _ hp
  obtain ⟨hnx, hnf, hng⟩ := pass_evaluates hev hp (x0 + p) htr
  have hdv : (trInput E (preIter prev)).dv = ofV 0 := (C51_scaling E (preIter prev) x0 (g x0) (H x0) hU hx hg hH).2.1
  have hD2 : 0 < D ^ 2 := by positivity
  have hpos : 0 < -quad (H x0) 0 p := by
    have := hS.decrease
    have := hN.nu_pos
    nlinarith
  have hcub := hN.cubic p (by rw [hS.length]; exact hDR)
  have hq2 : rdot p (rmv (H x0) p) / 2 = quad (H x0) 0 p := (quad_null _ _).symm
  rw [hq2, hS.length] at hcub
  have haug : dot (vadd step.ss step.ss0) (fun i => (trInput E (preIter prev)).dv i * FloatOps.abs (new.grad i) * vadd step.ss step.ss0 i) = fin 0 := by
    rw [hS.scaled, hdv, hng]
    have : (fun i => (ofV (0 : Fin n → ℝ) i : Num) * FloatOps.abs (ofV (g (x0 + p)) i) * ofV p i) = ofV 0 := by
      funext i; simp
    rw [this, dot_ofV, rdot_zero]
  set r : ℝ := (f x0 - f (x0 + p)) / -quad (H x0) 0 p with hr0
  have hrat : ratioOf (afterEval prev step (.ok new)).fval new step (trInput E (preIter prev)).dv = fin r := by
    unfold ratioOf
    have h1 : (afterEval prev step (.ok new)).fval = fin (f x0) := hf
    rw [haug, h1, hnf, hS.model]
    simp only [fin_neg, lit_def, Rat.cast_zero, fin_le, fin_sub, fin_mul, mul_zero, sub_zero]
    rw [if_neg (by simp only [decide_eq_true_eq]; exact not_le.mpr hpos), fin_div _ _ hpos.ne']
  have had : (afterEval prev step (.ok new)).delta = fin D := hd
  have hrs : r ≤ 0 ∨ 0 < r := le_or_gt r 0
  refine ⟨p, hS.scaled, by rw [trialPoint]; exact htr, hS.length, ⟨_, hS.model, hS.decrease.trans (by linarith)⟩, hnf, hng, ?_, ?_⟩
  · have := hS.decrease
    linarith
  have hacc : (radiusStep E prev step new).1 = decide (0 < r) := by
    unfold radiusStep
    rcases updateTrRadius_cases E new step (trInput E (preIter prev)).dv (afterEval prev step (.ok new)) with ⟨h, _⟩ | ⟨_, r', hr', h⟩
    · rw [hnf] at h; simp at h
    · rw [hrat] at hr'
      subst hr'
      rcases h with ⟨_, h1, h⟩ | ⟨_, h1, h⟩ | ⟨h2, _, m, h⟩ <;> rw [h] <;> simp
  rcases hrs with hle | hlt
  · right
    have hge : f x0 ≤ f (x0 + p) := by
      by_contra hcon
      push Not at hcon
      have : 0 < r := div_pos (by linarith) hpos
      linarith
    have hK : nu ≤ 2 * K * D := by
      have h1 := hS.decrease
      have h2 : nu / 2 * D ^ 2 ≤ K * D ^ 3 := by linarith
      have h3 : D ^ 2 * nu ≤ D ^ 2 * (2 * K * D) := by nlinarith
      exact le_of_mul_le_mul_left h3 hD2
    have hrd : (radiusStep E prev step new).2.delta = fin (min g1 (1 / 4) * D) ∧ (radiusStep E prev step new).2.trRatio = fin r := by
      unfold radiusStep
      rcases updateTrRadius_cases E new step (trInput E (preIter prev)).dv (afterEval prev step (.ok new)) with ⟨h, _⟩ | ⟨_, r', hr', h⟩
      · rw [hnf] at h; simp at h
      · rw [hrat] at hr'
        subst hr'
        have := hE.mu_pos
        have := hE.mu_eta
        rcases h with ⟨h1, _, h⟩ | ⟨_, h1, h⟩ | ⟨_, h1, m, h⟩
        · rw [hE.heta, fin_le, decide_eq_true_eq] at h1
          linarith
        · rw [h]
          refine ⟨?_, rfl⟩
          simp only [shrunkDelta]
          rw [had, hE.gamma1, hS.scaled, norm_ofV, hS.length, fin_mul, shrunk_real]
          congr 1
          rw [min_mul_of_nonneg _ _ hD.le, mul_comm D g1]
          congr 1
          ring
        · rw [hE.hmu, fin_le, decide_eq_false_iff_not] at h1
          linarith
    rcases hF.cases with ⟨h4, _⟩ | ⟨_, _, h5, _⟩
    · rw [hacc, decide_eq_true_eq] at h4; linarith
    · exact ⟨hge, hK, by rw [h5, hx], by rw [hF.delta, hrd.1], r, by rw [hF.ratio, hrd.2], hle⟩
  · left
    have hlt' : f (x0 + p) < f x0 := by
      rw [hr0, div_pos_iff] at hlt
      rcases hlt with ⟨h, _⟩ | ⟨_, h⟩ <;> linarith
    rcases hF.cases with ⟨_, _, _, h4, h5, _⟩ | ⟨h4, _⟩
    · exact ⟨hlt', by rw [h4, C51_nudge _ _ _ hU, hnx], by rw [h5, hnf]⟩
    · rw [hacc, decide_eq_false_iff_not] at h4; exact absurd hlt h4

/-- the loop heads -/
theorem saddle_head (hE : TRParams E mu eta g1 g2 D0) (hU : NoBounds E.lb E.ub) (O : ℕ → Oracles Num) (hX : ∀ k, ExactRoutines (O k)) (fuel : ℕ)
    (hO : ∀ k I, E.tr k I = trustRegion (O k) fuel E.opts.subspaceDim E.opts.stepbackStrat I)
    (hdim : (E.opts.subspaceDim = .two ∧ 1 < n ∧ M / 4503599627370496 ≤ nu) ∨ E.opts.subspaceDim = .full) (hN : NotMinimum f g H x0 nu M K D0)
    (hR : Returns E f g H) (startId : String) (hess0 : Hess0 Num) (st0 : St Num n) (happ : st0.happ = none)
    (k : ℕ) (st : St Num n) (cur : Funout Num n) (h : LoopHead E (ofV x0) startId hess0 st0 k st cur) :
    (lt st.fval (fin (f x0)) = true) ∨
      (st.x = ofV x0 ∧ st.fval = fin (f x0) ∧ st.grad = ofV (g x0) ∧ st.hess = ofM (H x0) ∧ st.delta = fin (min g1 (1 / 4) ^ k * D0) ∧
        ∀ j < k, nu ≤ 2 * K * (min g1 (1 / 4) ^ j * D0)) := by
  have hk0 : 0 < min g1 (1 / 4) := lt_min hE.g1_pos (by norm_num)
  have hk1 : min g1 (1 / 4) ≤ 1 := (min_le_right _ _).trans (by norm_num)
  induction k generalizing st cur with
  | zero =>
    right
    obtain ⟨h1, h2, h3⟩ := start_values hU hR.evaluates x0 startId hess0 st0 st cur h
    have hd : st.delta = fin D0 := by rw [← hE.deltaInit]; exact start_delta E _ startId hess0 st0 st cur h
    exact ⟨h1, h2, h3, returned_hess hU hR _ startId hess0 st0 happ 0 st cur h x0 h1, by rw [hd, pow_zero, one_mul], by simp⟩
  | succ k ih =>
    obtain ⟨prev, cur0, step, new, hh, hp⟩ := loopHead_pass E _ startId hess0 st0 k st cur h
    rcases ih prev cur0 hh with hlt | ⟨h1, h2, h3, h4, h5, h6⟩
    · left
      rcases C07_decrease E prev st cur0 cur new step hp with ⟨_, _, _, _, hl⟩ | ⟨_, _, he, _⟩
      · exact lt_of_lt_of_le' hl (le_of_lt' hlt)
      · rw [he]; exact hlt
    · have hpw : 0 < min g1 (1 / 4) ^ k := pow_pos hk0 k
      obtain ⟨p, -, -, -, -, -, -, -, hc⟩ := saddle_pass hE hU O hX fuel hO hdim hN hR.evaluates hp (min g1 (1 / 4) ^ k * D0) h1 h2 h3 h4 h5
        (mul_pos hpw hE.D0_pos) (mul_le_of_le_one_left hE.D0_pos.le (pow_le_one₀ hk0.le hk1))
      rcases hc with ⟨hl, _, hfv⟩ | ⟨hge, hKn, hx, hdl, _⟩
      · left
        rw [hfv, fin_lt]; simpa using hl
      · right
        obtain ⟨-, a2, a3⟩ := head_values hU hR.evaluates _ startId hess0 st0 (k + 1) st cur h x0 hx
        refine ⟨hx, a2, a3, returned_hess hU hR _ startId hess0 st0 happ (k + 1) st cur h x0 hx, by rw [hdl, pow_succ]; congr 1; ring, ?_⟩
        intro j hj
        rcases Nat.lt_succ_iff_lt_or_eq.mp hj with hj | rfl
        · exact h6 j hj
        · exact hKn

end Fides
