import Verif.Lemmas.SaddleRun
import Verif.Props.Quadratic
import Verif.Props.NoException

/-!
# C71: runs started at a saddle point or a maximum leave it
-/

namespace Fides
open Num Spec
variable {n : ℕ} {E : Env Num n} {f : (Fin n → ℝ) → ℝ} {g : (Fin n → ℝ) → Fin n → ℝ} {H : (Fin n → ℝ) → Fin n → Fin n → ℝ}
variable {mu eta g1 g2 D0 nu M K : ℝ} {x0 : Fin n → ℝ}

/-- **C71, the step.** Unbounded problems, exact arithmetic and linear algebra, exact gradients and Hessians, the full-space solver or the default solver in
at least two dimensions: an iteration at a stationary point `x0` with a curvature at most `-nu < 0` and radius `D ≤ delta_init` proposes a point at distance
exactly `D`, predicting a reduction of at least `nu D² / 2`.  If `2 K D < nu` the step is accepted; if it is not accepted then the objective is not smaller at
the trial point, the point stays, and the radius is multiplied by `min gamma1 (1/4)`. -/
theorem C71_step (hE : TRParams E mu eta g1 g2 D0) (hU : NoBounds E.lb E.ub) (O : ℕ → Oracles Num) (hX : ∀ k, ExactRoutines (O k)) (fuel : ℕ)
    (hO : ∀ k I, E.tr k I = trustRegion (O k) fuel E.opts.subspaceDim E.opts.stepbackStrat I)
    (hdim : (E.opts.subspaceDim = .two ∧ 1 < n ∧ M / 2 ^ 52 ≤ nu) ∨ E.opts.subspaceDim = .full) (hN : NotMinimum f g H x0 nu M K D0)
    (hR : Returns E f g H) (startId : String) (hess0 : Hess0 Num) (st0 : St Num n) (happ : st0.happ = none)
    (k : ℕ) (prev next : St Num n) (cur cur' new : Funout Num n) (step : Step Num n) (h : LoopHead E (ofV x0) startId hess0 st0 k prev cur)
    (hp : Pass E prev cur step new next cur') (D : ℝ) (hx : prev.x = ofV x0) (hd : prev.delta = fin D) (hD : 0 < D) (hD0 : D ≤ D0) :
    ∃ y : Fin n → ℝ, trialPoint prev step = ofV y ∧ rnorm (y - x0) = D ∧ (∃ q : ℝ, step.qpval = fin q ∧ nu / 2 * D ^ 2 ≤ -q) ∧
      (2 * K * D < nu → f y < f x0) ∧ (f y < f x0 → next.x = ofV y ∧ next.fval = fin (f y)) ∧
      (f x0 ≤ f y → next.x = ofV x0 ∧ next.delta = fin (min g1 (1 / 4) * D)) := by
  have hdim' : (E.opts.subspaceDim = .two ∧ 1 < n ∧ M / 4503599627370496 ≤ nu) ∨ E.opts.subspaceDim = .full := by norm_num at hdim ⊢; exact hdim
  obtain ⟨-, h2, h3⟩ := head_values hU hR.evaluates _ startId hess0 st0 k prev cur h x0 hx
  have h4 := returned_hess hU hR _ startId hess0 st0 happ k prev cur h x0 hx
  obtain ⟨p, -, a2, a3, ⟨q, a4, a5⟩, -, -, -, hc⟩ := saddle_pass hE hU O hX fuel hO hdim' hN hR.evaluates hp D hx h2 h3 h4 hd hD hD0
  have e : x0 + p - x0 = p := by funext i; simp
  refine ⟨x0 + p, a2, by rw [e, a3], ⟨q, a4, by linarith⟩, ?_, ?_, ?_⟩
  · intro hs
    rcases hc with ⟨h, _⟩ | ⟨_, h, _⟩
    · exact h
    · exact absurd hs (not_lt.mpr h)
  · intro hs
    rcases hc with ⟨_, h⟩ | ⟨h, _⟩
    · exact h
    · exact absurd hs (not_lt.mpr h)
  · intro hs
    rcases hc with ⟨h, _⟩ | ⟨_, _, h, h', _⟩
    · exact absurd h (not_lt.mpr hs)
    · exact ⟨h, h'⟩

/-- **C71, a number of iterations.** For every `N` with `2 K delta_init min(gamma1, 1/4)^N < nu`, a run that has made more than `N` iterations is at a point
with a value below the one at the saddle. -/
theorem C71_left (hE : TRParams E mu eta g1 g2 D0) (hU : NoBounds E.lb E.ub) (O : ℕ → Oracles Num) (hX : ∀ k, ExactRoutines (O k)) (fuel : ℕ)
    (hO : ∀ k I, E.tr k I = trustRegion (O k) fuel E.opts.subspaceDim E.opts.stepbackStrat I)
    (hdim : (E.opts.subspaceDim = .two ∧ 1 < n ∧ M / 2 ^ 52 ≤ nu) ∨ E.opts.subspaceDim = .full) (hN : NotMinimum f g H x0 nu M K D0)
    (hR : Returns E f g H) (startId : String) (hess0 : Hess0 Num) (st0 : St Num n) (happ : st0.happ = none)
    (N : ℕ) (hNK : 2 * K * (min g1 (1 / 4) ^ N * D0) < nu)
    (k : ℕ) (st : St Num n) (cur : Funout Num n) (h : LoopHead E (ofV x0) startId hess0 st0 k st cur) (hk : N < k) :
    ∃ y : Fin n → ℝ, st.x = ofV y ∧ st.fval = fin (f y) ∧ f y < f x0 := by
  have hdim' : (E.opts.subspaceDim = .two ∧ 1 < n ∧ M / 4503599627370496 ≤ nu) ∨ E.opts.subspaceDim = .full := by norm_num at hdim ⊢; exact hdim
  obtain ⟨y, hy, -⟩ := C01_current E (ofV x0) startId hess0 st0 k st cur h
  obtain ⟨-, hf, -⟩ := head_values hU hR.evaluates _ startId hess0 st0 k st cur h y hy
  refine ⟨y, hy, hf, ?_⟩
  rcases saddle_head hE hU O hX fuel hO hdim' hN hR startId hess0 st0 happ k st cur h with hl | ⟨-, -, -, -, -, hl⟩
  · rw [hf, fin_lt] at hl; simpa using hl
  · exact absurd hNK (not_lt.mpr (hl N hk))

/-- **C71, returned results.** Suppose moreover that no time limit is set, `maxiter > N`, and the radius `delta_init min(gamma1, 1/4)^N` is not below the machine
precision nor below `xtol`.  When `minimize` returns, the returned point has a value below the one at the saddle, and so has the point reported as best - or
the exit flag is `GTOL` and the gradient tolerances are met at some other point `y`, the last trial point, at a distance between
`delta_init min(gamma1, 1/4)^N` and `delta_init`, with a value not below the one at the saddle. -/
theorem C71_returned (hE : TRParams E mu eta g1 g2 D0) (hU : NoBounds E.lb E.ub) (O : ℕ → Oracles Num) (hX : ∀ k, ExactRoutines (O k)) (fuel : ℕ)
    (hO : ∀ k I, E.tr k I = trustRegion (O k) fuel E.opts.subspaceDim E.opts.stepbackStrat I)
    (hdim : (E.opts.subspaceDim = .two ∧ 1 < n ∧ M / 2 ^ 52 ≤ nu) ∨ E.opts.subspaceDim = .full) (hN : NotMinimum f g H x0 nu M K D0)
    (hR : Returns E f g H) (startId : String) (hess0 : Hess0 Num) (st0 : St Num n) (happ : st0.happ = none)
    (N : ℕ) (hNK : 2 * K * (min g1 (1 / 4) ^ N * D0) < nu) (hmax : (N : ℤ) < E.opts.maxiter) (htime : E.opts.maxtime = pinf)
    (hclock : ∀ k, ∃ t : ℝ, E.clock k = fin t) (hsmall : 1 / 2 ^ 52 ≤ min g1 (1 / 4) ^ N * D0) (xt : ℝ) (hxt : E.opts.xtol = fin xt)
    (hxt0 : xt ≤ min g1 (1 / 4) ^ N * D0) (ga gr : ℝ) (hga : E.opts.gatol = fin ga) (hgr : E.opts.grtol = fin gr)
    (loops : ℕ) (st' : St Num n) (h : minimize E loops (ofV x0) startId hess0 st0 = .ok st') :
    (∃ y : Fin n → ℝ, st'.x = ofV y ∧ st'.fval = fin (f y) ∧ f y < f x0 ∧ ∃ m : ℝ, st'.fvalMin = fin m ∧ m ≤ f y) ∨
      (st'.exitflag = .gtol ∧ ∃ y : Fin n → ℝ, min g1 (1 / 4) ^ N * D0 ≤ rnorm (y - x0) ∧ rnorm (y - x0) ≤ D0 ∧ f x0 ≤ f y ∧ (rnorm (g y) ≤ ga ∨ rnorm (g y) ≤ gr * |f x0|) ∧
        ∃ r older, st'.evals = r :: older ∧ r.arg = ofV y) := by
  have hdim' : (E.opts.subspaceDim = .two ∧ 1 < n ∧ M / 4503599627370496 ≤ nu) ∨ E.opts.subspaceDim = .full := by norm_num at hdim ⊢; exact hdim
  have hk0 : 0 < min g1 (1 / 4) := lt_min hE.g1_pos (by norm_num)
  have hk1 : min g1 (1 / 4) ≤ 1 := (min_le_right _ _).trans (by norm_num)
  obtain ⟨l, fb, -, hbest, hfm, -, -, hle⟩ := C05_best E (ofV x0) startId hess0 st0 loops _ h
  obtain ⟨k, st1, cur, st2, fl, hk, hh, hc, rfl⟩ := run_end E (ofV x0) startId hess0 st0 loops st' h
  have hi := headInv E _ startId hess0 st0 k st1 cur hh
  obtain ⟨y, hy, -⟩ := C01_current E (ofV x0) startId hess0 st0 k st1 cur hh
  obtain ⟨-, hf, -⟩ := head_values hU hR.evaluates _ startId hess0 st0 k st1 cur hh y hy
  rcases saddle_head hE hU O hX fuel hO hdim' hN hR startId hess0 st0 happ k st1 cur hh with hl | ⟨hx, hfv, -, -, hdl, hl⟩
  · left
    rw [hf, fin_lt] at hl
    have h2 : st2.x = ofV y ∧ st2.fval = fin (f y) := by
      rcases checkContinue_false E st1 st2 hc with ⟨_, rfl⟩ | ⟨_, _, rfl⟩ | ⟨_, _, _, rfl⟩ | ⟨_, _, _, rfl⟩ <;> exact ⟨hy, hf⟩
    refine ⟨y, h2.1, h2.2, by simpa using hl, ?_⟩
    have hle' : le st2.fvalMin st2.fval = true := hle
    rw [h2.2] at hle'
    have hfin : isFinite st2.fvalMin = true := by
      obtain ⟨_, _, -, hb, -⟩ := hbest
      have hfm' : st2.fvalMin = fb.fval := hfm
      rw [hfm']; exact hb
    cases hm : st2.fvalMin with
    | fin m => exact ⟨m, rfl, by rw [hm, fin_le] at hle'; simpa using hle'⟩
    | pinf => rw [hm] at hfin; simp at hfin
    | ninf => rw [hm] at hfin; simp at hfin
    | nan => rw [hm] at hfin; simp at hfin
  · right
    have hkN : k ≤ N := by
      by_contra hcon
      push Not at hcon
      exact absurd hNK (not_lt.mpr (hl N hcon))
    have hpow : ∀ j ≤ N, min g1 (1 / 4) ^ N * D0 ≤ min g1 (1 / 4) ^ j * D0 := fun j hj =>
      mul_le_mul_of_nonneg_right (pow_le_pow_of_le_one hk0.le hk1 hj) hE.D0_pos.le
    rcases checkContinue_false E st1 st2 hc with ⟨hcv, rfl⟩ | ⟨_, hm, rfl⟩ | ⟨_, _, ht, rfl⟩ | ⟨_, _, hdt, rfl⟩
    · -- converged
      cases k with
      | zero => rw [loopHead_start_converged E _ startId hess0 st0 _ _ hh] at hcv; cases hcv
      | succ k =>
        obtain ⟨prev, cur0, step, new, hh0, hp⟩ := loopHead_pass E _ startId hess0 st0 k _ cur hh
        rcases saddle_head hE hU O hX fuel hO hdim' hN hR startId hess0 st0 happ k prev cur0 hh0 with hlt | ⟨b1, b2, b3, b4, b5, b6⟩
        · exfalso
          have h7 : lt st2.fval (fin (f x0)) = true := by
            rcases C07_decrease E prev st2 cur0 cur new step hp with ⟨_, _, _, _, h8⟩ | ⟨_, _, he, _⟩
            · exact lt_of_lt_of_le' h8 (le_of_lt' hlt)
            · rw [he]; exact hlt
          rw [hfv, fin_lt] at h7
          simp at h7
        have hDp : 0 < min g1 (1 / 4) ^ k * D0 := mul_pos (pow_pos hk0 k) hE.D0_pos
        have hDle : min g1 (1 / 4) ^ k * D0 ≤ D0 := mul_le_of_le_one_left hE.D0_pos.le (pow_le_one₀ hk0.le hk1)
        obtain ⟨p, a1, a2, a3, -, a5, a6, -, hc'⟩ := saddle_pass hE hU O hX fuel hO hdim' hN hR.evaluates hp _ b1 b2 b3 b4 b5 hDp hDle
        rcases hc' with ⟨h8, h9, -⟩ | ⟨hge, -, -, -, r, hr, hr0⟩
        · exfalso
          rw [hx, ofV_inj] at h9
          rw [← h9] at h8
          exact lt_irrefl _ h8
        have hF := pass_facts E _ _ _ _ _ _ hp
        have hfl2 := hF.exitflag
        have hcc := hF.converged
        rw [hcv] at hcc
        have hrt : (radiusStep E prev step new).2.trRatio = fin r := by rw [← hF.ratio, hr]
        have hrf := radius_frame E prev step new
        have e : x0 + p - x0 = p := by funext i; simp
        rcases checkConvergence_cases E step new (radiusStep E prev step new).2 with ⟨h1, _, _⟩ | ⟨_, h1, _⟩ | ⟨h1, h2⟩ | h2
        · rw [hrt, hE.hmu, fin_lt, decide_eq_true_eq] at h1
          have := hE.mu_pos
          linarith
        · rw [stepLength, a1, norm_ofV, hxt, fin_lt, decide_eq_true_eq, a3] at h1
          have := hpow k (by omega)
          linarith
        · refine ⟨by show st2.exitflag = _; rw [hfl2, h2], x0 + p, ?_, by rw [e, a3]; exact hDle, hge, ?_, _, _, hp.evaluated, a2⟩
          · rw [e, a3]; exact hpow k (by omega)
          · rw [a6, hga, hgr, norm_ofV, hrf.1, b2] at h1
            simpa using h1
        · rw [h2] at hcc; cases hcc
    · exfalso
      rw [hi.iteration] at hm
      omega
    · exfalso
      obtain ⟨t1, ht1⟩ := hclock st1.ticks
      obtain ⟨t0, ht0⟩ := hclock st0.ticks
      generalize hm : (if st1.iteration = 0 then 1 else st1.iteration : ℕ) = m at ht
      have hm0 : m ≠ 0 := by rw [← hm]; split <;> omega
      rw [hi.starttime, htime, ht1, ht0, show (lit ((m : ℕ) : ℚ) : Num) = fin (m : ℝ) by simp, fin_sub, pinf_sub_fin, fin_div _ _ (by exact_mod_cast hm0)] at ht
      cases ht
    · exfalso
      have hsp : (spacing1 : Num) = fin (1 / 4503599627370496) := by norm_num [spacing1]
      rw [hdl, hsp, fin_lt, decide_eq_true_eq] at hdt
      have := hpow k hkN
      norm_num at hsmall
      norm_num at hdt
      linarith

/-- **C71, the case left out.** In one dimension the default solver does not leave stationary points: a run started where the derivative is zero and the second
derivative is not (in particular at a maximum) never changes the point, and ends after at most one iteration, with flag `GTOL` if it makes one. -/
theorem C71_one_dimension {E : Env Num 1} {f : (Fin 1 → ℝ) → ℝ} {g : (Fin 1 → ℝ) → Fin 1 → ℝ} {H : (Fin 1 → ℝ) → Fin 1 → Fin 1 → ℝ} {x0 : Fin 1 → ℝ}
    (hE : TRParams E mu eta g1 g2 D0) (hU : NoBounds E.lb E.ub) (O : ℕ → Oracles Num) (hX : ∀ k, ExactRoutines (O k)) (fuel : ℕ)
    (hO : ∀ k I, E.tr k I = trustRegion (O k) fuel E.opts.subspaceDim E.opts.stepbackStrat I) (hdim : E.opts.subspaceDim = .two)
    (hR : Returns E f g H) (hg0 : g x0 = 0) (hH0 : H x0 0 0 ≠ 0) (startId : String) (hess0 : Hess0 Num) (st0 : St Num 1) (happ : st0.happ = none)
    (ga : ℝ) (hga : E.opts.gatol = fin ga) (hga0 : 0 ≤ ga)
    (loops : ℕ) (st' : St Num 1) (h : minimize E loops (ofV x0) startId hess0 st0 = .ok st') :
    st'.x = ofV x0 ∧ st'.fval = fin (f x0) ∧ st'.iteration ≤ 1 ∧ (st'.iteration = 1 → st'.exitflag = .gtol) := by
  have hpass : ∀ prev cur step new next cur', LoopHead E (ofV x0) startId hess0 st0 0 prev cur → Pass E prev cur step new next cur' →
      next.x = ofV x0 ∧ next.fval = fin (f x0) ∧ next.converged = true ∧ next.exitflag = .gtol := by
    intro prev cur step new next cur' hh hp
    obtain ⟨hx, hf, hg⟩ := start_values hU hR.evaluates x0 startId hess0 st0 prev cur hh
    have hH := returned_hess hU hR _ startId hess0 st0 happ 0 prev cur hh x0 hx
    have hd : prev.delta = fin D0 := by rw [start_delta E _ _ _ _ prev cur hh, hE.deltaInit]
    have hi := headInv E _ startId hess0 st0 0 prev cur hh
    have hpr := hp.proposal
    rw [hO, hdim] at hpr
    obtain ⟨th, hP⟩ := unbounded_data hE hU { prev with iteration := prev.iteration + 1, deltaIter := prev.delta, ticks := prev.ticks + 1 } x0 (g x0) (H x0) D0 hx hg hH hd
    rw [C51_one_candidate _ _ _ _ _ hU th hP.theta hP.th0] at hpr
    rw [hg0] at hP
    obtain ⟨st', h1, h2, h3, h4⟩ := two_null hP hU hE.D0_pos (O prev.proposals) (hX _) hH0
    have hst : st' = step := by
      have : step2d (O prev.proposals) (trInput E { prev with iteration := prev.iteration + 1, deltaIter := prev.delta, ticks := prev.ticks + 1 }).prob = .ok step := hpr
      rw [h1] at this; cases this; rfl
    subst hst
    have hF := pass_facts E _ _ _ _ _ _ hp
    obtain ⟨_, hnf, hng⟩ := pass_evaluates hR.evaluates hp x0 (by rw [hx]; exact h3)
    obtain ⟨hr1, hr2, hr3⟩ := stall_radius hE prev st' new D0 (f x0) hE.D0_pos hd hnf h2 h4
    have hcc : checkConvergence E st' new (radiusStep E prev st' new).2 = { (radiusStep E prev st' new).2 with exitflag := .gtol, converged := true } := by
      unfold checkConvergence
      simp only
      rw [hr3, hE.hmu, hng, hg0, (radius_frame E prev st' new).2.1, hi.iteration, norm_ofV, rnorm_eq_zero.mpr rfl, hga]
      rw [if_neg, if_neg, if_pos]
      · simpa using hga0
      · simp
      · rw [fin_lt, decide_eq_false (by linarith [hE.mu_pos])]; simp
    refine ⟨?_, ?_, by rw [hF.converged, hcc], by rw [hF.exitflag, hcc]⟩
    · rcases hF.cases with ⟨h, _⟩ | ⟨_, _, h, _⟩
      · rw [hr1] at h; cases h
      · rw [h, hx]
    · rcases hF.cases with ⟨h, _⟩ | ⟨_, _, _, h, _⟩
      · rw [hr1] at h; cases h
      · rw [h, hf]
  obtain ⟨k, st1, cur, st2, fl, hk, hh, hc, rfl⟩ := run_end E (ofV x0) startId hess0 st0 loops st' h
  have hi := headInv E _ startId hess0 st0 k st1 cur hh
  match k, hh, hi with
  | 0, hh, hi =>
    obtain ⟨hx, hf, hg⟩ := start_values hU hR.evaluates x0 startId hess0 st0 st1 cur hh
    have hit := hi.iteration
    rcases checkContinue_false E st1 st2 hc with ⟨_, rfl⟩ | ⟨_, _, rfl⟩ | ⟨_, _, _, rfl⟩ | ⟨_, _, _, rfl⟩
    all_goals exact ⟨hx, hf, hit.le.trans (by norm_num), fun h1 => absurd (hit.symm.trans h1) (by norm_num)⟩
  | 1, hh, hi =>
    obtain ⟨prev, cur0, step, new, hh0, hp⟩ := loopHead_pass E _ startId hess0 st0 0 st1 cur hh
    obtain ⟨a1, a2, a3, a4⟩ := hpass prev cur0 step new st1 cur hh0 hp
    have hit := hi.iteration
    rcases checkContinue_false E st1 st2 hc with ⟨_, rfl⟩ | ⟨h, _⟩ | ⟨h, _⟩ | ⟨h, _⟩
    · exact ⟨a1, a2, hit.le, fun _ => a4⟩
    all_goals (rw [a3] at h; cases h)
  | k + 2, hh, hi =>
    exfalso
    obtain ⟨s, c, h1⟩ := loopHead_prefix E _ startId hess0 st0 (k + 2) st1 cur hh 2 (by omega)
    obtain ⟨prev, cur0, step, new, hh0, hp⟩ := loopHead_pass E _ startId hess0 st0 1 s c h1
    obtain ⟨prev1, cur1, step1, new1, hh1, hp1⟩ := loopHead_pass E _ startId hess0 st0 0 prev cur0 hh0
    obtain ⟨-, -, a3, -⟩ := hpass prev1 cur1 step1 new1 prev cur0 hh1 hp1
    rw [continues_live E _ _ hp.continues] at a3
    cases a3

/-! ### the assumptions are met -/

open Classical in
/-- an objective callback returning values, gradients and Hessians at real arguments and NaNs elsewhere -/
noncomputable def tameObj (f : (Fin n → ℝ) → ℝ) (g : (Fin n → ℝ) → Fin n → ℝ) (H : (Fin n → ℝ) → Fin n → Fin n → ℝ) (v : Vec Num n) : Ret Num :=
  if h : ∃ x, v = ofV x then .tuple [.scalar (fin (f h.choose)), .ofVec (ofV (g h.choose)), .ofMat (ofM (H h.choose))]
  else .tuple [.scalar nan, .ofVec fun _ : Fin n => nan, .ofMat fun _ _ : Fin n => nan]

theorem tameObj_real (f : (Fin n → ℝ) → ℝ) (g : (Fin n → ℝ) → Fin n → ℝ) (H : (Fin n → ℝ) → Fin n → Fin n → ℝ) (x : Fin n → ℝ) :
    tameObj f g H (ofV x) = .tuple [.scalar (fin (f x)), .ofVec (ofV (g x)), .ofMat (ofM (H x))] := by
  have hex : ∃ x', (ofV x : Vec Num n) = ofV x' := ⟨x, rfl⟩
  have hx : hex.choose = x := (ofV_inj.mp hex.choose_spec).symm
  unfold tameObj
  rw [dif_pos hex, hx]

/-- default options, no bounds, exact linear algebra -/
noncomputable def tameEnv (f : (Fin n → ℝ) → ℝ) (g : (Fin n → ℝ) → Fin n → ℝ) (H : (Fin n → ℝ) → Fin n → Fin n → ℝ) : Env Num n :=
  plainEnv n (tameObj f g H) fun _ => exactRoutines

theorem tameEnv_clean (f : (Fin n → ℝ) → ℝ) (g : (Fin n → ℝ) → Fin n → ℝ) (H : (Fin n → ℝ) → Fin n → Fin n → ℝ) (hs : ∀ x, Sym (H x)) :
    CleanObjective (tameEnv f g H) where
  nargout := rfl
  resfun := rfl
  obj k v hv := by
    by_cases hex : ∃ x, v = ofV x
    · obtain ⟨x, rfl⟩ := hex
      refine ⟨_, _, _, tameObj_real f g H x, fun _ => ⟨fun i => by simp [ofV], ⟨_, rfl⟩, _, rfl, hs x⟩⟩
    · refine ⟨nan, fun _ => nan, fun _ _ => nan, ?_, ?_⟩
      · show tameObj f g H v = _
        unfold tameObj
        rw [dif_neg hex]
      · intro h; cases h

theorem tameEnv_returns (hn : 0 < n) (f : (Fin n → ℝ) → ℝ) (g : (Fin n → ℝ) → Fin n → ℝ) (H : (Fin n → ℝ) → Fin n → Fin n → ℝ) (hs : ∀ x, Sym (H x))
    (r0 : Fin n → ℝ) : ∃ st, minimize (tameEnv f g H) 1000 (ofV r0) "0" (.val .none) (St.new (tameEnv f g H).opts none) = .ok st := by
  refine C68_minimize hn (tameEnv_clean f g H hs) rfl ?_ (fun _ => exactRoutines) (by intro k I; simp only [tameEnv, plainEnv, demo_opts])
    (by simp only [tameEnv, plainEnv, demo_opts]; decide) (fun _ _ => ⟨exactRoutines_finite, exactRoutines_documented⟩)
    (fun _ => ⟨_, rfl⟩) (fun _ => ⟨_, rfl⟩) r0 ?_ ?_ ?_ 1000 ?_
  · constructor <;> simp only [tameEnv, plainEnv, demo_opts]
    · exact ⟨_, rfl⟩
    · exact ⟨_, rfl⟩
    · exact ⟨_, rfl⟩
    · exact ⟨_, rfl, by norm_num, by norm_num⟩
  · intro i; exact ⟨rfl, rfl⟩
  · intro z _ _
    exact ⟨_, _, tameObj_real f g H z⟩
  · intro _ g hg; cases hg
  · simp only [tameEnv, plainEnv, demo_opts]; norm_num

/-- a saddle at the origin, with minima at `(0, ±1/2)` -/
noncomputable def wellF (x : Fin 2 → ℝ) : ℝ := (x 0 ^ 2 - x 1 ^ 2) / 2 + x 1 ^ 4
noncomputable def wellG (x : Fin 2 → ℝ) : Fin 2 → ℝ := ![x 0, -x 1 + 4 * x 1 ^ 3]
noncomputable def wellH (x : Fin 2 → ℝ) : Fin 2 → Fin 2 → ℝ := ![![1, 0], ![0, -1 + 12 * x 1 ^ 2]]

theorem well_notMinimum : NotMinimum wellF wellG wellH 0 1 1 1 1 where
  stationary := by funext i; fin_cases i <;> simp [wellG]
  sym := by intro i j; fin_cases i <;> fin_cases j <;> simp [wellH]
  nu_pos := one_pos
  negative := ⟨![0, 1], by simp [rdot, Fin.sum_univ_two], by simp [rdot, rmv, Fin.sum_univ_two, wellH]⟩
  bounded w := by
    simp only [rdot, rmv, Fin.sum_univ_two, wellH]
    simp
    rw [abs_le]
    constructor <;> nlinarith [mul_self_nonneg (w 0), mul_self_nonneg (w 1)]
  cubic s hs := by
    have h0 := rnorm_nonneg s
    have h2 := rnorm_sq s
    simp only [rdot, Fin.sum_univ_two] at h2
    simp only [rdot, rmv, Fin.sum_univ_two, wellH, wellF]
    simp
    have h1 : s 1 ^ 2 ≤ rnorm s ^ 2 := by nlinarith [mul_self_nonneg (s 0)]
    have h4 : s 1 ^ 4 ≤ rnorm s ^ 4 := by nlinarith [sq_nonneg (s 1), sq_nonneg (rnorm s)]
    have h5 : rnorm s ^ 4 ≤ rnorm s ^ 3 := by
      have : rnorm s ^ 4 = rnorm s ^ 3 * rnorm s := by ring
      rw [this]
      exact mul_le_of_le_one_right (pow_nonneg h0 3) hs
    nlinarith

/-- started with default options at the saddle of the double well, `minimize` returns, and what it returns is below the saddle -/
theorem well_run : ∃ st', minimize (tameEnv wellF wellG wellH) 1000 (ofV 0) "0" (.val .none) (St.new (tameEnv wellF wellG wellH).opts none) = .ok st' ∧
    ∃ y : Fin 2 → ℝ, st'.x = ofV y ∧ st'.fval = fin (wellF y) ∧ wellF y < 0 := by
  obtain ⟨st', h⟩ := tameEnv_returns (by norm_num) wellF wellG wellH
    (fun x i j => by fin_cases i <;> fin_cases j <;> simp [wellH]) 0
  have h0 : wellF 0 = 0 := by simp [wellF]
  refine ⟨st', h, ?_⟩
  rcases C71_returned (E := tameEnv wellF wellG wellH) (plain_params 2 _ _) (fun _ => ⟨rfl, rfl⟩) (fun _ => exactRoutines) (fun _ => exactRoutines_ok) 2
    (by intro k I; simp only [tameEnv, plainEnv, demo_opts]) (Or.inl ⟨by simp only [tameEnv, plainEnv, demo_opts], by norm_num, by norm_num⟩) well_notMinimum
    ⟨rfl, rfl, fun k x => tameObj_real wellF wellG wellH x⟩ "0" (.val .none) _ rfl 1 (by norm_num) (by simp only [tameEnv, plainEnv, demo_opts]; norm_num)
    (by simp only [tameEnv, plainEnv, demo_opts]) (fun _ => ⟨0, rfl⟩) (by norm_num) 0 (by simp only [tameEnv, plainEnv, demo_opts]) (by norm_num) (1 / 1000000) 0
    (by simp only [tameEnv, plainEnv, demo_opts]) (by simp only [tameEnv, plainEnv, demo_opts]) 1000 st' h with ⟨y, h1, h2, h3, -⟩ | ⟨-, y, h1, h2, h3, h4, -⟩
  · rw [h0] at h3
    exact ⟨y, h1, h2, h3⟩
  · exfalso
    rw [h0] at h3 h4
    have h5 : rnorm (wellG y) ≤ 1 / 1000000 := by rcases h4 with h | h <;> simp at h <;> linarith
    rw [rnorm_le_iff (by norm_num)] at h5
    have h6 := rnorm_sq (y - 0)
    rw [sub_zero] at h1 h2 h6
    simp only [rdot, Fin.sum_univ_two, wellG] at h5 h6
    simp at h5
    simp only [wellF] at h3
    norm_num at h1
    have h7 : 1 / 16 ≤ y 0 * y 0 + y 1 * y 1 := by rw [← h6]; nlinarith
    have h8 : y 0 * y 0 ≤ 1 / 1000000 := by nlinarith [mul_self_nonneg (-y 1 + 4 * y 1 ^ 3)]
    have h9 : 1 / 17 ≤ y 1 ^ 2 := by nlinarith
    have h10 : y 1 ^ 2 * (4 * y 1 ^ 2 - 1) ^ 2 ≤ 1 / 1000000 := by nlinarith [mul_self_nonneg (y 0)]
    have h11 : 0 ≤ 1 / 1000000 - y 1 ^ 2 + 2 * y 1 ^ 4 := by nlinarith
    generalize hz : y 1 ^ 2 = z at *
    have hz4 : y 1 ^ 4 = z ^ 2 := by rw [← hz]; ring
    rw [hz4] at h11
    have h12 : 0.499 ≤ z := by
      by_contra hcon
      push Not at hcon
      nlinarith
    nlinarith

/-- the assumptions of `C71_one_dimension` are met: started at the maximum of `1 - x²/2 ` (or of the cosine), the default solver stays there -/
example : ∃ st', minimize (tameEnv (n := 1) (fun x => Real.cos (x 0)) (fun x _ => -Real.sin (x 0)) fun x _ _ => -Real.cos (x 0)) 1000 (ofV 0) "0" (.val .none)
      (St.new (tameEnv (n := 1) (fun x => Real.cos (x 0)) (fun x _ => -Real.sin (x 0)) fun x _ _ => -Real.cos (x 0)).opts none) = .ok st' ∧
    st'.x = ofV 0 ∧ st'.iteration ≤ 1 ∧ (st'.iteration = 1 → st'.exitflag = .gtol) := by
  obtain ⟨st', h⟩ := tameEnv_returns (n := 1) (by norm_num) (fun x => Real.cos (x 0)) (fun x _ => -Real.sin (x 0)) (fun x _ _ => -Real.cos (x 0))
    (fun x i j => rfl) 0
  obtain ⟨h1, -, h2⟩ 
      := C71_one_dimension (E := tameEnv (n := 1) (fun x => Real.cos (x 0)) (fun x _ => -Real.sin (x 0)) fun x _ _ => -Real.cos (x 0))
    (f := fun x => Real.cos (x 0)) (g := fun x _ => -Real.sin (x 0)) (H := fun x _ _ => -Real.cos (x 0)) (x0 := 0) (plain_params 1 _ _) (fun _ => ⟨rfl, rfl⟩) (fun _ => exactRoutines) (fun _ => exactRoutines_ok) 1
    (by intro k I; simp only [tameEnv, plainEnv, demo_opts]) (by simp only [tameEnv, plainEnv, demo_opts]) ⟨rfl, rfl, fun k x => tameObj_real (n := 1) (fun x => Real.cos (x 0)) (fun x _ => -Real.sin (x 0)) (fun x _ _ => -Real.cos (x 0)) x⟩
    (by funext i; simp) (by simp) "0" (.val .none) _ rfl (1 / 1000000) (by simp only [tameEnv, plainEnv, demo_opts]) (by norm_num) 1000 st' h
  exact ⟨st', h, h1, h2⟩

end Fides
