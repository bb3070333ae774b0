import Verif.Lemmas.Convex
import Verif.Props.NewtonConvergence
import Verif.Props.LocalConvergence

/-!
# C80: strongly convex problems are solved from every starting point, finally with quadratic convergence

Combination of C63 (global convergence) and C73 (fast convergence near a minimum): unbounded problem, exact Hessian, default or full-space solver, exact arithmetic.
-/

namespace Fides
open Num Spec
variable {n : ℕ} {E : Env Num n} {f : (Fin n → ℝ) → ℝ} {g : (Fin n → ℝ) → Fin n → ℝ} {H : (Fin n → ℝ) → Fin n → Fin n → ℝ} {xs : Fin n → ℝ} {mu eta g1 g2 D0 m M L R : ℝ}

/-- the loop heads of such a run: either all gradients so far are at least `m R` long, or the run has been in the basin of the minimum -/
theorem convex_heads (hE : TRParams E mu eta g1 g2 D0) (hU : NoBounds E.lb E.ub) (O : ℕ → Oracles Num) (hX : ∀ k, ExactRoutines (O k)) (fuel : ℕ)
    (hO : ∀ k I, E.tr k I = trustRegion (O k) fuel E.opts.subspaceDim E.opts.stepbackStrat I)
    (hdim : E.opts.subspaceDim = .two ∨ E.opts.subspaceDim = .full) (hR : Returns E f g H) (hS : StronglyConvex m M L f g H) (hs : g xs = 0)
    (hR0 : 0 < R) (hprec : 1 / 33554432 ≤ m * R / M)
    (x0 : Fin n → ℝ) (startId : String) (hess0 : Hess0 Num) (st0 : St Num n) (happ : st0.happ = none)
    (k : ℕ) (st : St Num n) (cur : Funout Num n) (h : LoopHead E (ofV x0) startId hess0 st0 k st cur) :
    (k < newtonBound mu g1 g2 D0 M m M (f x0 - f xs) (m * R) ∧ ∃ x D, st.x = ofV x ∧ st.delta = fin D ∧ newtonFloor mu g1 D0 M m M (m * R) ≤ D) ∨
      ∃ k0 ≤ k, k0 < newtonBound mu g1 g2 D0 M m M (f x0 - f xs) (m * R) ∧ ∃ stk curk xk Dk, LoopHead E (ofV x0) startId hess0 st0 k0 stk curk ∧ stk.x = ofV xk ∧ stk.delta = fin Dk ∧
        newtonFloor mu g1 D0 M m M (m * R) ≤ Dk ∧ Basin (3 * R) m R f xs xk := by
  classical
  have hm := hS.m_pos
  have hM0 : 0 < M := hm.trans_le hS.m_le
  have he : 0 < m * R := mul_pos hm hR0
  have hev := hR.evaluates
  have hdec : Decreasing E g 0 (m * (m * R) / (2 * M)) (m * R / m) (m * R / (2 * M)) (m * R) x0 startId hess0 st0 := by
    intro j prev cur step new next cur' hh hp
    exact newton_modelDecrease hE hU O hX fuel hO hdim hm hM0 he hprec hp (fun x hx =>
      ⟨H x, returned_hess hU hR _ startId hess0 st0 happ j prev cur hh x hx, hS.symmetric x, fun v => ⟨hS.lower x v, hS.upper x v⟩⟩)
  have hvis := fun k st cur hh hk => visits_of hE hU hev hS.smooth (f xs) (newtonConst M m M (m * R) hM0 hm hS.m_le he) (hS.min hs) x0 startId hess0 st0 (m * R) hdec k st cur hh
    (newtonBound mu g1 g2 D0 M m M (f x0 - f xs) (m * R)) (newtonBound_eq _ _ _ _ _) hk
  have hcnt := run_counted hE hU hev M 0 hS.smooth (newtonConst M m M (m * R) hM0 hm hS.m_le he) x0 startId hess0 st0 hdec
  let P : ℕ → Prop := fun j => ∃ st' cur' x', LoopHead E (ofV x0) startId hess0 st0 j st' cur' ∧ st'.x = ofV x' ∧ rnorm (g x') < m * R
  by_cases hex : ∃ j, j ≤ k ∧ P j
  · right
    have hfind := Nat.find_spec hex
    set k0 := Nat.find hex with hk0
    have hmin : ∀ j < k0, ¬ P j := fun j hj hP => Nat.find_min hex hj ⟨by omega, hP⟩
    obtain ⟨hk0k, stk, curk, xk, b1, b2, b3⟩ := hfind
    have hlt : k0 < newtonBound mu g1 g2 D0 M m M (f x0 - f xs) (m * R) := by
      by_contra hcon
      push Not at hcon
      obtain ⟨j, hj, st', cur', x', c1, c2, c3⟩ := hvis k0 stk curk b1 hcon
      exact hmin j (by omega) ⟨st', cur', x', c1, c2, c3⟩
    obtain ⟨x, D, G, K, hc⟩ := hcnt k0 stk curk b1 (fun j hj st' cur' x' c1 c2 => by
      by_contra hcon
      exact hmin j hj ⟨st', cur', x', c1, c2, not_le.mp hcon⟩)
    refine ⟨k0, hk0k, hlt, stk, curk, xk, D, b1, b2, hc.delta, hc.lower, ?_, ?_⟩
    · have h1 := (hS.curved hs (rnorm (xk - xs))).strong le_rfl
      have h2 : rnorm (xk - xs) ≤ R := le_of_mul_le_mul_left (h1.trans b3.le) hm
      linarith
    · have h1 := hS.gap xk xs
      have h2 : rnorm (g xk) * rnorm (g xk) ≤ m * R * (m * R) := mul_self_le_mul_self (rnorm_nonneg _) b3.le
      refine h1.trans ?_
      rw [div_le_iff₀ (by linarith)]
      nlinarith
  · left
    push Not at hex
    obtain ⟨x, D, G, K, hc⟩ := hcnt k st cur h (fun j hj st' cur' x' c1 c2 => by
      by_contra hcon
      exact hex j hj.le ⟨st', cur', x', c1, c2, not_le.mp hcon⟩)
    refine ⟨?_, x, D, hc.hx, hc.delta, hc.lower⟩
    by_contra hcon
    push Not at hcon
    obtain ⟨j, hj, st', cur', x', c1, c2, c3⟩ := hvis k st cur h hcon
    exact hex j (by omega) ⟨st', cur', x', c1, c2, c3⟩

theorem newtonFloor_pos (hE : TRParams E mu eta g1 g2 D0) (hm : 0 < m) (hmM : m ≤ M) (hR0 : 0 < R) : 0 < newtonFloor mu g1 D0 M m M (m * R) :=
  (newtonConst M m M (m * R) (hm.trans_le hmM) hm hmM (mul_pos hm hR0)).lo_pos hE

/-- **C80, rate.** Let the objective be strongly convex (curvatures between `m > 0` and `M`, Lipschitz continuous Hessian) with minimizer `xs`, let the problem have no bounds and the
solver be the default or the full-space one with exact linear algebra, and let `R` be the size of a basin of `xs` (C73) that is not so small that the tolerance of the solver matters
(`m R ≥ M / 2^25`).  Then from every starting point, whatever the tolerances and limits: after `newtonBound + K + j` iterations (if the run is that long) the distance from
the minimizer is at most `R / 4^(2^j - 1)`. -/
theorem C80_rate (hE : TRParams E mu eta g1 g2 D0) (hU : NoBounds E.lb E.ub) (O : ℕ → Oracles Num) (hX : ∀ k, ExactRoutines (O k)) (fuel : ℕ)
    (hO : ∀ k I, E.tr k I = trustRegion (O k) fuel E.opts.subspaceDim E.opts.stepbackStrat I)
    (hdim : E.opts.subspaceDim = .two ∨ E.opts.subspaceDim = .full) (hR : Returns E f g H) (hS : StronglyConvex m M L f g H) (hs : g xs = 0)
    (hB : BasinSize (3 * R) m L eta R) (hprec : 1 / 33554432 ≤ m * R / M)
    (x0 : Fin n → ℝ) (startId : String) (hess0 : Hess0 Num) (st0 : St Num n) (happ : st0.happ = none)
    (ga : ℝ) (hga : E.opts.gatol = fin ga) (hga0 : 0 ≤ ga) (hstart : ga < rnorm (g x0))
    (K : ℕ) (hK : 5 / 4 * R ≤ newtonFloor mu g1 D0 M m M (m * R) * g2 ^ K) (j : ℕ) (st : St Num n) (cur : Funout Num n)
    (h : LoopHead E (ofV x0) startId hess0 st0 (newtonBound mu g1 g2 D0 M m M (f x0 - f xs) (m * R) + K + j) st cur) :
    ∃ x : Fin n → ℝ, st.x = ofV x ∧ rnorm (x - xs) ≤ R / 4 ^ (2 ^ j - 1) := by
  have hlo := newtonFloor_pos (R := R) hE hS.m_pos hS.m_le hB.pos
  rcases convex_heads hE hU O hX fuel hO hdim hR hS hs hB.pos hprec x0 startId hess0 st0 happ _ st cur h with ⟨hk, -⟩ | ⟨k0, -, hk0, stk, curk, xk, Dk, b1, b2, b3, b4, b5⟩
  · omega
  · have hg2 : 0 < g2 := by linarith [hE.g2_ge]
    obtain ⟨d, hd⟩ := Nat.exists_eq_add_of_le hk0.le
    obtain ⟨x, h1, h2⟩ := C73_rate hE hU O hX fuel hO hdim hR (hS.curved hs (3 * R)) hB x0 startId hess0 st0 happ ga hga hga0 hstart k0 stk curk xk Dk b1 b2 b3 (hlo.trans_le b4) b5 K
      (hK.trans (mul_le_mul_of_nonneg_right b4 (pow_nonneg hg2.le _))) (d + j) st cur (by rw [hd] at h; rw [show k0 + K + (d + j) = k0 + d + K + j by omega]; exact h)
    refine ⟨x, h1, h2.trans ?_⟩
    refine div_le_div_of_nonneg_left hB.pos.le (by positivity) (pow_le_pow_right₀ (by norm_num) ?_)
    have : 2 ^ j ≤ 2 ^ (d + j) := Nat.pow_le_pow_right (by norm_num) (by omega)
    omega

/-- **C80, number of iterations.** Such a run makes fewer than `newtonBound + K + J` iterations, for every `J` with `5/4 M R / 4^(2^J - 1) ≤ gatol`: the part that depends on the tolerance
grows like the logarithm of the logarithm of `1 / gatol`, and `gatol` may be as small as one likes. -/
theorem C80_iterations (hE : TRParams E mu eta g1 g2 D0) (hU : NoBounds E.lb E.ub) (O : ℕ → Oracles Num) (hX : ∀ k, ExactRoutines (O k)) (fuel : ℕ)
    (hO : ∀ k I, E.tr k I = trustRegion (O k) fuel E.opts.subspaceDim E.opts.stepbackStrat I)
    (hdim : E.opts.subspaceDim = .two ∨ E.opts.subspaceDim = .full) (hR : Returns E f g H) (hS : StronglyConvex m M L f g H) (hs : g xs = 0)
    (hB : BasinSize (3 * R) m L eta R) (hprec : 1 / 33554432 ≤ m * R / M)
    (x0 : Fin n → ℝ) (startId : String) (hess0 : Hess0 Num) (st0 : St Num n) (happ : st0.happ = none)
    (ga : ℝ) (hga : E.opts.gatol = fin ga) (hga0 : 0 ≤ ga) (hstart : ga < rnorm (g x0))
    (K : ℕ) (hK : 5 / 4 * R ≤ newtonFloor mu g1 D0 M m M (m * R) * g2 ^ K) (J : ℕ) (hJ : 5 / 4 * M * (R / 4 ^ (2 ^ J - 1)) ≤ ga)
    (k : ℕ) (st : St Num n) (cur : Funout Num n) (h : LoopHead E (ofV x0) startId hess0 st0 k st cur) :
    k < newtonBound mu g1 g2 D0 M m M (f x0 - f xs) (m * R) + K + J := by
  have hlo := newtonFloor_pos (R := R) hE hS.m_pos hS.m_le hB.pos
  rcases convex_heads hE hU O hX fuel hO hdim hR hS hs hB.pos hprec x0 startId hess0 st0 happ _ st cur h with ⟨hk, -⟩ | ⟨k0, -, hk0, stk, curk, xk, Dk, b1, b2, b3, b4, b5⟩
  · omega
  · have hg2 : 0 < g2 := by linarith [hE.g2_ge]
    have := local_stops hE hU O hX fuel hO hdim hR (hS.curved hs (3 * R)) hB (hS.m_pos.le.trans hS.m_le) (fun x _ => hS.upper x) x0 startId hess0 st0 happ ga hga hga0 hstart k0 stk curk xk Dk
      b1 b2 b3 (hlo.trans_le b4) b5 K (hK.trans (mul_le_mul_of_nonneg_right b4 (pow_nonneg hg2.le _))) J hJ k st cur h
    omega

theorem convex_live (hE : TRParams E mu eta g1 g2 D0) (hU : NoBounds E.lb E.ub) (O : ℕ → Oracles Num) (hX : ∀ k, ExactRoutines (O k)) (fuel : ℕ)
    (hO : ∀ k I, E.tr k I = trustRegion (O k) fuel E.opts.subspaceDim E.opts.stepbackStrat I)
    (hdim : E.opts.subspaceDim = .two ∨ E.opts.subspaceDim = .full) (hR : Returns E f g H) (hS : StronglyConvex m M L f g H) (hs : g xs = 0)
    (hB : BasinSize (3 * R) m L eta R) (hprec : 1 / 33554432 ≤ m * R / M)
    (x0 : Fin n → ℝ) (startId : String) (hess0 : Hess0 Num) (st0 : St Num n) (happ : st0.happ = none)
    (ga : ℝ) (hga : E.opts.gatol = fin ga) (hga0 : 0 ≤ ga) (hstart : ga < rnorm (g x0))
    (k : ℕ) (st : St Num n) (cur : Funout Num n) (h : LoopHead E (ofV x0) startId hess0 st0 k st cur) :
    ∃ x D, st.x = ofV x ∧ cur.x = ofV x ∧ st.fval = fin (f x) ∧ st.grad = ofV (g x) ∧ st.delta = fin D ∧ newtonFloor mu g1 D0 M m M (m * R) ≤ D ∧ 0 < D := by
  have hlo := newtonFloor_pos (R := R) hE hS.m_pos hS.m_le hB.pos
  have hev := hR.evaluates
  have hfin : ∀ x D, st.x = ofV x → st.delta = fin D → newtonFloor mu g1 D0 M m M (m * R) ≤ D →
      ∃ x D, st.x = ofV x ∧ cur.x = ofV x ∧ st.fval = fin (f x) ∧ st.grad = ofV (g x) ∧ st.delta = fin D ∧ newtonFloor mu g1 D0 M m M (m * R) ≤ D ∧ 0 < D := by
    intro x D h1 h2 h3
    obtain ⟨a1, a2, a3⟩ := head_values hU hev _ startId hess0 st0 k st cur h x h1
    exact ⟨x, D, h1, a1, a2, a3, h2, h3, hlo.trans_le h3⟩
  rcases convex_heads hE hU O hX fuel hO hdim hR hS hs hB.pos hprec x0 startId hess0 st0 happ _ st cur h with ⟨-, x, D, h1, h2, h3⟩ | ⟨k0, hk0k, hk0, stk, curk, xk, Dk, b1, b2, b3, b4, b5⟩
  · exact hfin x D h1 h2 h3
  · obtain ⟨d, rfl⟩ := Nat.exists_eq_add_of_le hk0k
    obtain ⟨x, D, h1, -, -, -, h5, h6, -⟩ := local_head hE hU O hX fuel hO hdim hR (hS.curved hs (3 * R)) hB x0 startId hess0 st0 happ ga hga hga0 hstart k0 Dk (hlo.trans_le b4)
      (fun s c hh => by
        obtain ⟨rfl, rfl⟩ := loopHead_unique E _ startId hess0 st0 k0 _ _ _ _ b1 hh
        exact ⟨xk, b2, b3, b5⟩) d st cur h
    exact hfin x D h1 h5 (b4.trans h6)

/-- the evaluations of such a run: at every loop head there is at least one, and all are real values of the objective -/
theorem convex_evals (hE : TRParams E mu eta g1 g2 D0) (hU : NoBounds E.lb E.ub) (O : ℕ → Oracles Num) (hX : ∀ k, ExactRoutines (O k)) (fuel : ℕ)
    (hO : ∀ k I, E.tr k I = trustRegion (O k) fuel E.opts.subspaceDim E.opts.stepbackStrat I)
    (hdim : E.opts.subspaceDim = .two ∨ E.opts.subspaceDim = .full) (hR : Returns E f g H) (hS : StronglyConvex m M L f g H) (hs : g xs = 0)
    (hB : BasinSize (3 * R) m L eta R) (hprec : 1 / 33554432 ≤ m * R / M)
    (x0 : Fin n → ℝ) (startId : String) (hess0 : Hess0 Num) (st0 : St Num n) (happ : st0.happ = none)
    (ga : ℝ) (hga : E.opts.gatol = fin ga) (hga0 : 0 ≤ ga) (hstart : ga < rnorm (g x0))
    (k : ℕ) (st : St Num n) (cur : Funout Num n) (h : LoopHead E (ofV x0) startId hess0 st0 k st cur) :
    ∃ (c : EvalRec Num n) (l : List (EvalRec Num n)), st.evals = (c :: l) ++ st0.evals ∧
      ∀ r ∈ c :: l, ∃ (z : Fin n → ℝ) (fo : Funout Num n), r = { arg := ofV z, out := .ok fo } ∧ fo.x = ofV z ∧ fo.fval = fin (f z) ∧ fo.grad = ofV (g z) := by
  have hev := hR.evaluates
  induction k generalizing st cur with
  | zero =>
    obtain ⟨l, fo0, h1, h2, h3, -, -, h4, -⟩ := (headInv E _ startId hess0 st0 0 st cur h).evals
    obtain rfl : l = [] := List.length_eq_zero_iff.mp h2
    obtain ⟨m', raw, h5, h6⟩ := head_evaluated E _ startId hess0 st0 0 st cur h
    simp only [List.nil_append, List.mem_singleton, EvalRec.mk.injEq, Except.ok.injEq] at h4
    obtain ⟨h7, rfl⟩ := h4
    rw [C51_nudge _ _ _ hU] at h7
    rw [h7] at h5 h6
    obtain ⟨h8, h9⟩ := hev m' x0 _ raw cur h5 h6
    refine ⟨{ arg := ofV x0, out := .ok cur }, [], by rw [h1, C51_nudge _ _ _ hU]; rfl, ?_⟩
    intro r hr
    simp only [List.mem_singleton] at hr
    exact ⟨x0, cur, hr, h7, h8, h9⟩
  | succ k ih =>
    obtain ⟨prev, cur0, step, new, hh, hp⟩ := loopHead_pass E _ startId hess0 st0 k st cur h
    obtain ⟨c, l, h1, h2⟩ := ih prev cur0 hh
    obtain ⟨x, D, hx, -, -, hg, hd, -, hD⟩ := convex_live hE hU O hX fuel hO hdim hR hS hs hB hprec x0 startId hess0 st0 happ ga hga hga0 hstart k prev cur0 hh
    have hgr : ga < rnorm (g x) := head_gradient (ofV x0) startId hess0 st0 ga hga (fun s c gr hs' hg' => by
      obtain ⟨-, -, h3⟩ := start_values hU hev x0 startId hess0 st0 s c hs'
      rw [h3] at hg'
      rw [← ofV_inj.mp hg']; exact hstart) k prev cur0 hh (continues_live E prev _ hp.continues) (g x) hg
    have hpr := hp.proposal
    rw [hO] at hpr
    have hC := hS.curved hs (rnorm (x - xs))
    obtain ⟨nv, hnv⟩ := curved_newton hC le_rfl
    obtain ⟨step', hs', p, hN⟩ := newton_step (g := g) hE hU (O _) (hX _) fuel E.opts.stepbackStrat hdim
      { prev with iteration := prev.iteration + 1, deltaIter := prev.delta, ticks := prev.ticks + 1 } x D hx hg hd hD (H x)
      (returned_hess hU hR _ startId hess0 st0 happ k prev cur0 hh x hx) (hS.symmetric x) (curved_pd hC le_rfl) (gnz hga0 hgr) nv hnv
    rw [hs'] at hpr
    cases hpr
    have a3 : vadd (vadd prev.x step.s) step.s0 = ofV (x + p) := by rw [hx]; exact hN.trial
    obtain ⟨b3, b4, b5⟩ := pass_evaluates hev hp _ a3
    refine ⟨{ arg := ofV (x + p), out := .ok new }, c :: l, by rw [hp.evaluated, h1, a3]; rfl, ?_⟩
    intro r hr
    rcases List.mem_cons.mp hr with rfl | hr
    · exact ⟨x + p, new, rfl, b3, b4, b5⟩
    · exact h2 r hr

/-- **C80, total correctness.** With the other tolerances switched off, no time limit, an iteration limit of at least the bound and a radius floor above machine precision: from every starting
point that does not already satisfy the gradient tolerance `minimize` returns normally with flag `gtol`, after fewer than `newtonBound + K + J` iterations.  The value of the best point
`xMin` exceeds the minimum by at most `gatol² / (2 m)`, and it is within `gatol / m` of the minimizer. -/
theorem C80_minimizer (hn : 0 < n) (hE : TRParams E mu eta g1 g2 D0) (hU : NoBounds E.lb E.ub) (O : ℕ → Oracles Num) (hX : ∀ k, ExactRoutines (O k)) (fuel : ℕ)
    (hO : ∀ k I, E.tr k I = trustRegion (O k) fuel E.opts.subspaceDim E.opts.stepbackStrat I)
    (hdim : E.opts.subspaceDim = .two ∨ E.opts.subspaceDim = .full) (hR : Returns E f g H) (hS : StronglyConvex m M L f g H) (hs : g xs = 0)
    (hB : BasinSize (3 * R) m L eta R) (hprec : 1 / 33554432 ≤ m * R / M)
    (x0 : Fin n → ℝ) (startId : String) (hess0 : Hess0 Num) (st0 : St Num n) (happ : st0.happ = none)
    (hevs : ∀ m, ∃ r, E.evs m = .ok r) (hcond : ∀ m, ∃ r, E.cond m = .ok r) (hfile : ∀ grp ∈ st0.file, grp.1 ≠ startId)
    (ga : ℝ) (hga : E.opts.gatol = fin ga) (hga0 : 0 ≤ ga) (hstart : ga < rnorm (g x0))
    (hgr : E.opts.grtol = fin 0) (hfa : E.opts.fatol = fin 0) (hfr : E.opts.frtol = fin 0) (hxt : E.opts.xtol = fin 0)
    (K : ℕ) (hK : 5 / 4 * R ≤ newtonFloor mu g1 D0 M m M (m * R) * g2 ^ K) (J : ℕ) (hJ : 5 / 4 * M * (R / 4 ^ (2 ^ J - 1)) ≤ ga)
    (loops : ℕ) (hloops : newtonBound mu g1 g2 D0 M m M (f x0 - f xs) (m * R) + K + J ≤ loops)
    (hiter : ((newtonBound mu g1 g2 D0 M m M (f x0 - f xs) (m * R) + K + J : ℕ) : ℤ) ≤ E.opts.maxiter) (htime : E.opts.maxtime = pinf)
    (hclock : ∀ k, ∃ t : ℝ, E.clock k = fin t) (hfloor : 1 / 4503599627370496 ≤ newtonFloor mu g1 D0 M m M (m * R)) :
    ∃ st', minimize E loops (ofV x0) startId hess0 st0 = .ok st' ∧ st'.exitflag = .gtol ∧ st'.iteration < newtonBound mu g1 g2 D0 M m M (f x0 - f xs) (m * R) + K + J ∧
      ∃ x : Fin n → ℝ, st'.xMin = ofV x ∧ st'.fvalMin = fin (f x) ∧ st'.gradMin = ofV (g x) ∧ f x - f xs ≤ ga * ga / (2 * m) ∧ rnorm (x - xs) ≤ ga / m := by
  have hev := hR.evaluates
  have hstop := C80_iterations hE hU O hX fuel hO hdim hR hS hs hB hprec x0 startId hess0 st0 happ ga hga hga0 hstart K hK J hJ
  have hlive := convex_live hE hU O hX fuel hO hdim hR hS hs hB hprec x0 startId hess0 st0 happ ga hga hga0 hstart
  have hprop : ∀ k st cur, LoopHead E (ofV x0) startId hess0 st0 k st cur → ProposesAt E g H ga st := by
    intro k st cur hh
    obtain ⟨x, D, h1, -⟩ := hlive k st cur hh
    exact local_proposes hE hU O hX fuel hO hdim (hS.curved hs (rnorm (x - xs))) ga hga0 st ⟨x, h1, le_rfl⟩
  obtain ⟨st', hmin, hfl, x, y, fo, hlast, h4, h5, h6⟩ := flag_core hn hU H hR x0 startId hess0 st0 _ ga hprop hga hstart _ hstop hlive
    (fun k prev cur step new next cur' hh hp x D hx hg hd hD hgr => by
      have hpr := hp.proposal
      rw [hO] at hpr
      have hg0 := gnz hga0 hgr
      have hC := hS.curved hs (rnorm (x - xs))
      obtain ⟨nv, hnv⟩ := curved_newton hC le_rfl
      obtain ⟨step', hs', p, hN⟩ := newton_step (g := g) hE hU (O _) (hX _) fuel E.opts.stepbackStrat hdim
        { prev with iteration := prev.iteration + 1, deltaIter := prev.delta, ticks := prev.ticks + 1 } x D hx hg hd hD (H x)
        (returned_hess hU hR _ startId hess0 st0 happ k prev cur hh x hx) (hS.symmetric x) (curved_pd hC le_rfl) hg0 nv hnv
      rw [hs'] at hpr
      cases hpr
      exact ⟨p, hN.scaled, by rw [hx]; exact hN.trial⟩)
    happ hevs hcond hfile loops hloops hiter htime hclock hfloor
  have hgt : st'.exitflag = .gtol := by
    rcases hfl with hfl | hfl | hfl
    · exfalso
      have h := h5 hfl
      rw [hfa, hfr] at h
      simp at h
      linarith [abs_nonneg (f y - f x)]
    · exfalso
      have h := h6 hfl
      rw [hxt] at h
      simp at h
      linarith [rnorm_nonneg (y - x)]
    · exact hfl
  have hgy : rnorm (g y) ≤ ga := by
    rcases h4 hgt with h | h
    · exact h
    · rw [hgr] at h
      have : rnorm (g y) ≤ 0 := by simpa using h
      linarith
  refine ⟨st', hmin, hgt, ?_, ?_⟩
  · obtain ⟨k, st1, cur, st2, fl, -, hh, hc, rfl⟩ := run_end E (ofV x0) startId hess0 st0 loops st' hmin
    have hi := headInv E _ startId hess0 st0 k st1 cur hh
    have h2 : st2.iteration = st1.iteration := by
      rcases checkContinue_false E st1 st2 hc with ⟨_, rfl⟩ | ⟨_, _, rfl⟩ | ⟨_, _, _, rfl⟩ | ⟨_, _, _, rfl⟩ <;> rfl
    show st2.iteration < _
    rw [h2, hi.iteration]
    exact hstop k st1 cur hh
  · obtain ⟨k, st1, cur, st2, fl, -, hh, hc, rfl⟩ := run_end E (ofV x0) startId hess0 st0 loops st' hmin
    have hevl : st2.evals = st1.evals := by
      rcases checkContinue_false E st1 st2 hc with ⟨_, rfl⟩ | ⟨_, _, rfl⟩ | ⟨_, _, _, rfl⟩ | ⟨_, _, _, rfl⟩ <;> rfl
    obtain ⟨c, l, e1, e2⟩ := convex_evals hE hU O hX fuel hO hdim hR hS hs hB hprec x0 startId hess0 st0 happ ga hga hga0 hstart k st1 cur hh
    have hlast' : st2.evals.head? = some { arg := ofV y, out := .ok fo } := hlast
    rw [hevl, e1] at hlast'
    simp only [List.cons_append, List.head?_cons, Option.some.injEq] at hlast'
    subst hlast'
    obtain ⟨z, fo', q1, q2, q3, q4⟩ := e2 _ (List.mem_cons_self ..)
    simp only [EvalRec.mk.injEq, Except.ok.injEq] at q1
    obtain ⟨q0, rfl⟩ := q1
    obtain rfl : y = z := ofV_inj.mp q0
    obtain ⟨l1, b, c1, c2, c3, c4, c5, -⟩ := C05_best E (ofV x0) startId hess0 st0 loops _ hmin
    obtain ⟨l2, b', d1, d2, d3, d4, d5⟩ := C06_xmin E (ofV x0) startId hess0 st0 loops _ hmin
    have hl1 : l1 = { arg := ofV y, out := .ok fo } :: l := by
      have : l1 ++ st0.evals = ({ arg := ofV y, out := .ok fo } :: l) ++ st0.evals := by
        rw [← c1, ← e1, ← hevl]
      exact List.append_cancel_right this
    have hl2 : l2 = { arg := ofV y, out := .ok fo } :: l := by
      have : l2 ++ st0.evals = ({ arg := ofV y, out := .ok fo } :: l) ++ st0.evals := by
        rw [← d1, ← e1, ← hevl]
      exact List.append_cancel_right this
    obtain ⟨later, earlier, f1, -⟩ := d2
    obtain ⟨w, fb, w1, w2, w3, w4⟩ := e2 { arg := b'.x, out := .ok b' } (by rw [← hl2, f1]; simp)
    simp only [EvalRec.mk.injEq, Except.ok.injEq] at w1
    obtain ⟨w0, rfl⟩ := w1
    have hle := c5 _ (by rw [hl1]; exact List.mem_cons_self ..) fo rfl (by rw [q3]; rfl)
    rw [d3, w3, q3] at hle
    have hwy : f w ≤ f y := by simpa using hle
    have hxm : st2.xMin = ofV w := by
      rcases d5 with h | ⟨_, h⟩
      · rw [← w0]; exact h
      · rw [C51_nudge _ _ _ hU, w0] at h; exact h
    have hgap := hS.gap y xs
    have hm := hS.m_pos
    have hbound : f w - f xs ≤ ga * ga / (2 * m) := by
      have h1 : rnorm (g y) * rnorm (g y) / (2 * m) ≤ ga * ga / (2 * m) :=
        div_le_div_of_nonneg_right (mul_self_le_mul_self (rnorm_nonneg _) hgy) (by linarith)
      linarith
    refine ⟨w, hxm, d3.trans w3, d4.trans w4, hbound, ?_⟩
    have hgrow := hS.growth hs w
    have h0 := rnorm_nonneg (w - xs)
    have h2 : (m * rnorm (w - xs)) ^ 2 ≤ ga ^ 2 := by
      rw [le_div_iff₀ (by linarith)] at hbound
      nlinarith
    have h3 : m * rnorm (w - xs) ≤ ga := by
      exact (sq_le_sq₀ (mul_nonneg hm.le h0) hga0).mp h2
    rw [le_div_iff₀ hm]; linarith

end Fides
