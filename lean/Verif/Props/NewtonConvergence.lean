import Verif.Lemmas.NewtonDecrease
import Verif.Lemmas.Converge

/-!
# C63: convergence with the default solver and with the full-space solver
-/

namespace Fides
open Num Spec
variable {n : ℕ} {E : Env Num n} {f : (Fin n → ℝ) → ℝ} {g : (Fin n → ℝ) → Fin n → ℝ} {mu eta g1 g2 D0 : ℝ}

theorem newtonConst (L m M eps : ℝ) (hL : 0 < L) (hm : 0 < m) (hmM : m ≤ M) (he : 0 < eps) :
    CountConst mu (m * eps / (2 * M)) (eps / m) (eps / (2 * M)) ((L + 0) / 2) (min (eps / (2 * M)) ((1 - mu) * m * eps / (L * M))) := by
  have hM : 0 < M := hm.trans_le hmM
  refine ⟨by positivity, by positivity, by positivity, by positivity, ?_⟩
  have e1 : (1 - mu) * (m * eps / (2 * M)) / ((L + 0) / 2) = (1 - mu) * m * eps / (L * M) := by
    rw [add_zero]; field_simp
  have e2 : eps / (2 * M) ≤ eps / m := div_le_div_of_nonneg_left he.le hm (by linarith)
  rw [e1, ← min_assoc, min_eq_left e2]

theorem newtonBound_eq (L m M gap eps : ℝ) : newtonBound mu g1 g2 D0 L m M gap eps = passBound g1 g2 D0 gap
    (min D0 (min g1 (1 / 4) * min (eps / (2 * M)) ((1 - mu) * m * eps / (L * M))))
    (mu * (m * eps / (2 * M) * min (min D0 (min g1 (1 / 4) * min (eps / (2 * M)) ((1 - mu) * m * eps / (L * M)))) (eps / m))) := rfl

/-- **C63 (partial).** Unbounded problems, default (two-dimensional) or full-space solver, exact arithmetic and exact linear algebra: let the
objective have a Lipschitz continuous gradient (constant `L`) and be bounded below, and let the model Hessians used by the run be symmetric
with curvatures between `m > 0` and `M`.  Then for every `eps` not below `M` times the solver's tolerance, the run visits within `newtonBound`
iterations a point whose gradient is shorter than `eps`.  Missing: Hessians that are not uniformly positive definite; see
`C63_counterexample`. -/
theorem C63_visits_partial (hE : TRParams E mu eta g1 g2 D0) (hU : NoBounds E.lb E.ub) (O : ℕ → Oracles Num) (hX : ∀ k, ExactRoutines (O k)) (fuel : ℕ)
    (hO : ∀ k I, E.tr k I = trustRegion (O k) fuel E.opts.subspaceDim E.opts.stepbackStrat I)
    (hdim : E.opts.subspaceDim = .two ∨ E.opts.subspaceDim = .full) (hev : Evaluates E f g)
    (L m M fmin : ℝ) (hL0 : 0 < L) (hm0 : 0 < m) (hmM : m ≤ M) (hL : SmoothWith L f g)
    (hmin : ∀ y, fmin ≤ f y) (x0 : Fin n → ℝ) (startId : String) (hess0 : Hess0 Num) (st0 : St Num n)
    (hB : ∀ j st cur x, LoopHead E (ofV x0) startId hess0 st0 j st cur → st.x = ofV x → BetweenSym m M st.hess)
    (eps : ℝ) (he : 0 < eps) (hprec : 1 / 33554432 ≤ eps / M) (k : ℕ) (st : St Num n) (cur : Funout Num n)
    (h : LoopHead E (ofV x0) startId hess0 st0 k st cur) (hk : newtonBound mu g1 g2 D0 L m M (f x0 - fmin) eps ≤ k) :
    ∃ j < newtonBound mu g1 g2 D0 L m M (f x0 - fmin) eps, ∃ st' cur' x', LoopHead E (ofV x0) startId hess0 st0 j st' cur' ∧
      st'.x = ofV x' ∧ rnorm (g x') < eps :=
  visits_of hE hU hev hL fmin (newtonConst L m M eps hL0 hm0 hmM he) hmin x0 startId hess0 st0 eps
    (fun j prev cur step new next cur' hh hp => newton_modelDecrease hE hU O hX fuel hO hdim hm0 (hm0.trans_le hmM) he hprec hp (fun x => hB j prev cur x hh)) k st cur h _
    (newtonBound_eq _ _ _ _ _) hk

/-- **C63 (partial).** With a gradient tolerance `gatol` not below `M` times the solver's tolerance, and a starting point that does not already
satisfy it, a run under the assumptions of `C63_visits_partial` makes fewer than `newtonBound` iterations, whatever the iteration limit. -/
theorem C63_stops_partial (hE : TRParams E mu eta g1 g2 D0) (hU : NoBounds E.lb E.ub) (O : ℕ → Oracles Num) (hX : ∀ k, ExactRoutines (O k)) (fuel : ℕ)
    (hO : ∀ k I, E.tr k I = trustRegion (O k) fuel E.opts.subspaceDim E.opts.stepbackStrat I)
    (hdim : E.opts.subspaceDim = .two ∨ E.opts.subspaceDim = .full) (hev : Evaluates E f g)
    (L m M fmin : ℝ) (hL0 : 0 < L) (hm0 : 0 < m) (hmM : m ≤ M) (hL : SmoothWith L f g)
    (hmin : ∀ y, fmin ≤ f y) (x0 : Fin n → ℝ) (startId : String) (hess0 : Hess0 Num) (st0 : St Num n)
    (hB : ∀ j st cur x, LoopHead E (ofV x0) startId hess0 st0 j st cur → st.x = ofV x → BetweenSym m M st.hess)
    (ga : ℝ) (hga : E.opts.gatol = fin ga) (hga0 : 0 < ga) (hprec : 1 / 33554432 ≤ ga / M) (hstart : ga < rnorm (g x0))
    (k : ℕ) (st : St Num n) (cur : Funout Num n) (h : LoopHead E (ofV x0) startId hess0 st0 k st cur) :
    k < newtonBound mu g1 g2 D0 L m M (f x0 - fmin) ga :=
  stops_of hE hU hev hL fmin (newtonConst L m M ga hL0 hm0 hmM hga0) hmin x0 startId hess0 st0 ga
    (fun j prev cur step new next cur' hh hp => newton_modelDecrease hE hU O hX fuel hO hdim hm0 (hm0.trans_le hmM) hga0 hprec hp (fun x => hB j prev cur x hh)) hga hstart _
    (newtonBound_eq _ _ _ _ _) k st cur h

theorem newton_proposes (hE : TRParams E mu eta g1 g2 D0) (hU : NoBounds E.lb E.ub) (O : ℕ → Oracles Num) (hX : ∀ k, ExactRoutines (O k)) (fuel : ℕ)
    (hO : ∀ k I, E.tr k I = trustRegion (O k) fuel E.opts.subspaceDim E.opts.stepbackStrat I)
    (hdim : E.opts.subspaceDim = .two ∨ E.opts.subspaceDim = .full) (H : (Fin n → ℝ) → Fin n → Fin n → ℝ) (m M : ℝ) (hm0 : 0 < m)
    (hHM : ∀ x, Sym (H x) ∧ ∀ v, m * rdot v v ≤ rdot v (rmv (H x) v) ∧ rdot v (rmv (H x) v) ≤ M * rdot v v) (ga : ℝ) (hga0 : 0 < ga) : Proposes E g H ga := by
  intro st1 x D hx hg hH hd hDp hgr
  have hg0 : g x ≠ 0 := by
    intro h0
    rw [h0, rnorm_eq_zero.mpr rfl] at hgr; linarith
  have hpd : PD (H x) := fun v hv => lt_of_lt_of_le (mul_pos hm0 (rdot_self_pos hv)) ((hHM x).2 v).1
  obtain ⟨nv, hnv⟩ := pd_solve (hHM x).1 hpd (g x)
  obtain ⟨step, hs, p, hN⟩ := newton_step (g := g) hE hU (O st1.proposals) (hX _) fuel E.opts.stepbackStrat hdim
    (preIter { st1 with ticks := st1.ticks + 1 }) x D hx hg hd hDp (H x) hH (hHM x).1 hpd hg0 nv hnv
  exact ⟨step, p, by rw [hO]; exact hs, by rw [trialPoint, hx]; exact hN.trial⟩

/-- **C63 (partial), total correctness.** For an objective that returns value, gradient and a Hessian with curvatures between `m` and `M` at
every real vector: `minimize` returns normally, after fewer than `newtonBound` iterations. -/
theorem C63_total_partial (hn : 0 < n) (hE : TRParams E mu eta g1 g2 D0) (hU : NoBounds E.lb E.ub) (O : ℕ → Oracles Num) (hX : ∀ k, ExactRoutines (O k)) (fuel : ℕ)
    (hO : ∀ k I, E.tr k I = trustRegion (O k) fuel E.opts.subspaceDim E.opts.stepbackStrat I)
    (hdim : E.opts.subspaceDim = .two ∨ E.opts.subspaceDim = .full) (H : (Fin n → ℝ) → Fin n → Fin n → ℝ) (hR : Returns E f g H)
    (L m M fmin : ℝ) (hL0 : 0 < L) (hm0 : 0 < m) (hmM : m ≤ M) (hL : SmoothWith L f g)
    (hmin : ∀ y, fmin ≤ f y) (hHM : ∀ x, Sym (H x) ∧ ∀ v, m * rdot v v ≤ rdot v (rmv (H x) v) ∧ rdot v (rmv (H x) v) ≤ M * rdot v v)
    (x0 : Fin n → ℝ) (startId : String) (hess0 : Hess0 Num) (st0 : St Num n) (happ : st0.happ = none)
    (hevs : ∀ m, ∃ r, E.evs m = .ok r) (hcond : ∀ m, ∃ r, E.cond m = .ok r) (hfile : ∀ grp ∈ st0.file, grp.1 ≠ startId)
    (ga : ℝ) (hga : E.opts.gatol = fin ga) (hga0 : 0 < ga) (hprec : 1 / 33554432 ≤ ga / M) (hstart : ga < rnorm (g x0))
    (loops : ℕ) (hloops : newtonBound mu g1 g2 D0 L m M (f x0 - fmin) ga ≤ loops) :
    ∃ st', minimize E loops (ofV x0) startId hess0 st0 = .ok st' ∧ st'.iteration < newtonBound mu g1 g2 D0 L m M (f x0 - fmin) ga := by
  have hB : ∀ j st cur x, LoopHead E (ofV x0) startId hess0 st0 j st cur → st.x = ofV x → BetweenSym m M st.hess := by
    intro j st cur x hh hx
    exact ⟨H x, returned_hess hU hR _ startId hess0 st0 happ j st cur hh x hx, hHM x⟩
  exact total_of hn hE hU H hR hL fmin (newtonConst L m M ga hL0 hm0 hmM hga0) hmin x0 startId hess0 st0 ga
    (fun j prev cur step new next cur' hh hp => newton_modelDecrease hE hU O hX fuel hO hdim hm0 (hm0.trans_le hmM) hga0 hprec hp (fun x => hB j prev cur x hh))
    (newton_proposes hE hU O hX fuel hO hdim H m M hm0 hHM ga hga0) hga hstart _ (newtonBound_eq _ _ _ _ _) happ hevs hcond hfile loops hloops

/-- **C63 (partial), reason for stopping.** If moreover the iteration limit is not below the bound, there is no time limit, and the radius floor
is not below the machine precision, then the run stops with one of the three convergence flags. -/
theorem C63_flag_partial (hn : 0 < n) (hE : TRParams E mu eta g1 g2 D0) (hU : NoBounds E.lb E.ub) (O : ℕ → Oracles Num) (hX : ∀ k, ExactRoutines (O k)) (fuel : ℕ)
    (hO : ∀ k I, E.tr k I = trustRegion (O k) fuel E.opts.subspaceDim E.opts.stepbackStrat I)
    (hdim : E.opts.subspaceDim = .two ∨ E.opts.subspaceDim = .full) (H : (Fin n → ℝ) → Fin n → Fin n → ℝ) (hR : Returns E f g H)
    (L m M fmin : ℝ) (hL0 : 0 < L) (hm0 : 0 < m) (hmM : m ≤ M) (hL : SmoothWith L f g)
    (hmin : ∀ y, fmin ≤ f y) (hHM : ∀ x, Sym (H x) ∧ ∀ v, m * rdot v v ≤ rdot v (rmv (H x) v) ∧ rdot v (rmv (H x) v) ≤ M * rdot v v)
    (x0 : Fin n → ℝ) (startId : String) (hess0 : Hess0 Num) (st0 : St Num n) (happ : st0.happ = none)
    (hevs : ∀ m, ∃ r, E.evs m = .ok r) (hcond : ∀ m, ∃ r, E.cond m = .ok r) (hfile : ∀ grp ∈ st0.file, grp.1 ≠ startId)
    (ga : ℝ) (hga : E.opts.gatol = fin ga) (hga0 : 0 < ga) (hprec : 1 / 33554432 ≤ ga / M) (hstart : ga < rnorm (g x0))
    (loops : ℕ) (hloops : newtonBound mu g1 g2 D0 L m M (f x0 - fmin) ga ≤ loops)
    (hiter : (newtonBound mu g1 g2 D0 L m M (f x0 - fmin) ga : ℤ) ≤ E.opts.maxiter) (htime : E.opts.maxtime = pinf)
    (hclock : ∀ k, ∃ t : ℝ, E.clock k = fin t) (hfloor : 1 / 4503599627370496 ≤ newtonFloor mu g1 D0 L m M ga) :
    ∃ st', minimize E loops (ofV x0) startId hess0 st0 = .ok st' ∧
      (st'.exitflag = .ftol ∨ st'.exitflag = .xtol ∨ st'.exitflag = .gtol) ∧
      -- the last call of the objective, at `y`, after a step `y - x` from the point `x`; the flags refer to these
      ∃ x y fo, st'.evals.head? = some { arg := ofV y, out := .ok fo } ∧
        (st'.exitflag = .gtol → rnorm (g y) ≤ ga ∨ le (fin (rnorm (g y))) (E.opts.grtol * fin |f x|) = true) ∧
        (st'.exitflag = .ftol → lt (fin |f y - f x|) (E.opts.fatol + E.opts.frtol * fin |f x|) = true) ∧
        (st'.exitflag = .xtol → lt (fin (rnorm (y - x))) E.opts.xtol = true) := by
  have hB : ∀ j st cur x, LoopHead E (ofV x0) startId hess0 st0 j st cur → st.x = ofV x → BetweenSym m M st.hess := by
    intro j st cur x hh hx
    exact ⟨H x, returned_hess hU hR _ startId hess0 st0 happ j st cur hh x hx, hHM x⟩
  exact flag_of hn hE hU H hR hL fmin (newtonConst L m M ga hL0 hm0 hmM hga0) hmin x0 startId hess0 st0 ga
    (fun j prev cur step new next cur' hh hp => newton_modelDecrease hE hU O hX fuel hO hdim hm0 (hm0.trans_le hmM) hga0 hprec hp (fun x => hB j prev cur x hh))
    (newton_proposes hE hU O hX fuel hO hdim H m M hm0 hHM ga hga0) hga hstart _ (newtonBound_eq _ _ _ _ _) happ hevs hcond hfile loops hloops
    hiter htime hclock hfloor

/-- **C63 (partial), stationarity.** With the function and step tolerances and the relative gradient tolerance switched off, the run stops with
flag `gtol` and the point evaluated last has a gradient not longer than `gatol`. -/
theorem C63_gtol_partial (hn : 0 < n) (hE : TRParams E mu eta g1 g2 D0) (hU : NoBounds E.lb E.ub) (O : ℕ → Oracles Num) (hX : ∀ k, ExactRoutines (O k)) (fuel : ℕ)
    (hO : ∀ k I, E.tr k I = trustRegion (O k) fuel E.opts.subspaceDim E.opts.stepbackStrat I)
    (hdim : E.opts.subspaceDim = .two ∨ E.opts.subspaceDim = .full) (H : (Fin n → ℝ) → Fin n → Fin n → ℝ) (hR : Returns E f g H)
    (L m M fmin : ℝ) (hL0 : 0 < L) (hm0 : 0 < m) (hmM : m ≤ M) (hL : SmoothWith L f g)
    (hmin : ∀ y, fmin ≤ f y) (hHM : ∀ x, Sym (H x) ∧ ∀ v, m * rdot v v ≤ rdot v (rmv (H x) v) ∧ rdot v (rmv (H x) v) ≤ M * rdot v v)
    (x0 : Fin n → ℝ) (startId : String) (hess0 : Hess0 Num) (st0 : St Num n) (happ : st0.happ = none)
    (hevs : ∀ m, ∃ r, E.evs m = .ok r) (hcond : ∀ m, ∃ r, E.cond m = .ok r) (hfile : ∀ grp ∈ st0.file, grp.1 ≠ startId)
    (ga : ℝ) (hga : E.opts.gatol = fin ga) (hga0 : 0 < ga) (hprec : 1 / 33554432 ≤ ga / M) (hstart : ga < rnorm (g x0))
    (loops : ℕ) (hloops : newtonBound mu g1 g2 D0 L m M (f x0 - fmin) ga ≤ loops)
    (hiter : (newtonBound mu g1 g2 D0 L m M (f x0 - fmin) ga : ℤ) ≤ E.opts.maxiter) (htime : E.opts.maxtime = pinf)
    (hclock : ∀ k, ∃ t : ℝ, E.clock k = fin t) (hfloor : 1 / 4503599627370496 ≤ newtonFloor mu g1 D0 L m M ga)
    (hfa : E.opts.fatol = fin 0) (hfr : E.opts.frtol = fin 0) (hxt : E.opts.xtol = fin 0) (hgr : E.opts.grtol = fin 0) :
    ∃ st', minimize E loops (ofV x0) startId hess0 st0 = .ok st' ∧ st'.exitflag = .gtol ∧
      ∃ y fo, st'.evals.head? = some { arg := ofV y, out := .ok fo } ∧ rnorm (g y) ≤ ga := by
  obtain ⟨st', h1, h2, x, y, fo, h3, h4, h5, h6⟩ := C63_flag_partial hn hE hU O hX fuel hO hdim H hR L m M fmin hL0 hm0 hmM hL hmin hHM x0 startId hess0 st0 happ
    hevs hcond hfile ga hga hga0 hprec hstart loops hloops hiter htime hclock hfloor
  refine ⟨st', h1, ?_⟩
  rcases h2 with h2 | h2 | h2
  · exfalso
    have h := h5 h2
    rw [hfa, hfr] at h
    simp at h
    linarith [abs_nonneg (f y - f x)]
  · exfalso
    have h := h6 h2
    rw [hxt] at h
    simp at h
    linarith [rnorm_nonneg (y - x)]
  · refine ⟨h2, y, fo, h3, ?_⟩
    rcases h4 h2 with h | h
    · exact h
    · rw [hgr] at h
      simp at h; linarith

end Fides
