import Verif.Lemmas.SteihaugDecrease
import Verif.Lemmas.Converge

/-!
# C62: the method converges to stationary points, at a known rate
-/

namespace Fides
open Num Spec
variable {n : ℕ} {E : Env Num n} {f : (Fin n → ℝ) → ℝ} {g : (Fin n → ℝ) → Fin n → ℝ} {mu eta g1 g2 D0 : ℝ}

/-- constants of the counting argument in terms of the explicit bound -/
theorem steihaugConst (L M eps : ℝ) (hL : 0 ≤ L) (hM : 0 < M) (he : 0 < eps) :
    CountConst mu (eps / 2) (eps / M) (eps / M) ((L + M) / 2) (min (eps / M) ((1 - mu) * eps / (L + M))) := by
  refine ⟨by positivity, by positivity, by positivity, by positivity, ?_⟩
  have : (1 - mu) * (eps / 2) / ((L + M) / 2) = (1 - mu) * eps / (L + M) := by
    have : L + M ≠ 0 := by positivity
    field_simp
  rw [this, ← min_assoc, min_self]

theorem iterBound_eq (L M gap eps : ℝ) : iterBound mu g1 g2 D0 L M gap eps = passBound g1 g2 D0 gap
    (min D0 (min g1 (1 / 4) * min (eps / M) ((1 - mu) * eps / (L + M))))
    (mu * (eps / 2 * min (min D0 (min g1 (1 / 4) * min (eps / M) ((1 - mu) * eps / (L + M)))) (eps / M))) := rfl

/-- **C62.** Unbounded problems, Steihaug solver, exact arithmetic: let the objective have a Lipschitz continuous gradient (constant `L`) and be
bounded below, and let the model Hessians used by the run be symmetric and bounded by `M` (they may come from the user or from any
approximation, and may be indefinite).  Then within `iterBound` iterations — a number given by the options, `L`, `M`, the distance of the
initial value to the lower bound, and `eps` alone — the run visits a point whose gradient is shorter than `eps`. -/
theorem C62_steihaug (hE : TRParams E mu eta g1 g2 D0) (hU : NoBounds E.lb E.ub) (hT : UsesTrustRegion E)
    (hdim : E.opts.subspaceDim = .steihaug) (hev : Evaluates E f g) (L M fmin : ℝ) (hL0 : 0 ≤ L) (hM0 : 0 < M) (hL : SmoothWith L f g)
    (hmin : ∀ y, fmin ≤ f y) (x0 : Fin n → ℝ) (startId : String) (hess0 : Hess0 Num) (st0 : St Num n)
    (hB : ∀ j st cur x, LoopHead E (ofV x0) startId hess0 st0 j st cur → st.x = ofV x → BoundedSym M st.hess)
    (eps : ℝ) (he : 0 < eps) (k : ℕ) (st : St Num n) (cur : Funout Num n) (h : LoopHead E (ofV x0) startId hess0 st0 k st cur)
    (hk : iterBound mu g1 g2 D0 L M (f x0 - fmin) eps ≤ k) :
    ∃ j < iterBound mu g1 g2 D0 L M (f x0 - fmin) eps, ∃ st' cur' x', LoopHead E (ofV x0) startId hess0 st0 j st' cur' ∧
      st'.x = ofV x' ∧ rnorm (g x') < eps := by
  exact visits_of hE hU hev hL fmin (steihaugConst L M eps hL0 hM0 he) hmin x0 startId hess0 st0 eps
    (fun j prev cur step new next cur' hh hp => steihaug_decrease hE hU hT hdim hM0 he hp (fun x => hB j prev cur x hh)) k st cur h _
    (iterBound_eq _ _ _ _) hk

/-- **C62.** With a positive gradient tolerance `gatol`, and a starting point that does not already satisfy it, a run under the assumptions of
`C62_steihaug` makes fewer than `iterBound` iterations, whatever the iteration limit. -/
theorem C62_stops (hE : TRParams E mu eta g1 g2 D0) (hU : NoBounds E.lb E.ub) (hT : UsesTrustRegion E)
    (hdim : E.opts.subspaceDim = .steihaug) (hev : Evaluates E f g) (L M fmin : ℝ) (hL0 : 0 ≤ L) (hM0 : 0 < M) (hL : SmoothWith L f g)
    (hmin : ∀ y, fmin ≤ f y) (x0 : Fin n → ℝ) (startId : String) (hess0 : Hess0 Num) (st0 : St Num n)
    (hB : ∀ j st cur x, LoopHead E (ofV x0) startId hess0 st0 j st cur → st.x = ofV x → BoundedSym M st.hess)
    (ga : ℝ) (hga : E.opts.gatol = fin ga) (hga0 : 0 < ga) (hstart : ga < rnorm (g x0))
    (k : ℕ) (st : St Num n) (cur : Funout Num n) (h : LoopHead E (ofV x0) startId hess0 st0 k st cur) :
    k < iterBound mu g1 g2 D0 L M (f x0 - fmin) ga := by
  exact stops_of hE hU hev hL fmin (steihaugConst L M ga hL0 hM0 hga0) hmin x0 startId hess0 st0 ga
    (fun j prev cur step new next cur' hh hp => steihaug_decrease hE hU hT hdim hM0 hga0 hp (fun x => hB j prev cur x hh)) hga hstart _
    (iterBound_eq _ _ _ _) k st cur h

theorem steihaug_proposes (hE : TRParams E mu eta g1 g2 D0) (hU : NoBounds E.lb E.ub) (hn : 0 < n) (O : ℕ → Oracles Num)
    (hO : ∀ k I, E.tr k I = trustRegion (O k) n E.opts.subspaceDim E.opts.stepbackStrat I)
    (hdim : E.opts.subspaceDim = .steihaug) (H : (Fin n → ℝ) → Fin n → Fin n → ℝ) (M : ℝ) (hM0 : 0 < M)
    (hHM : ∀ x, Sym (H x) ∧ ∀ v, |rdot v (rmv (H x) v)| ≤ M * rdot v v) (ga : ℝ) (hga0 : 0 < ga) : Proposes E g H ga := by
  intro st1 x D hx hg hH hd hDp hgr
  have hstep : ∃ step, E.tr st1.proposals (trInput E (preIter { st1 with ticks := st1.ticks + 1 })) = .ok step := by
    rw [hO, hdim]
    obtain ⟨th, hP⟩ := unbounded_data hE hU (preIter { st1 with ticks := st1.ticks + 1 }) x (g x) (H x) D hx hg hH hd
    rw [C51_one_candidate _ _ _ _ _ hU th hP.theta hP.th0]
    exact C28_terminates hn (O st1.proposals) _ 1 (g x) 0 (H x) D hP.scaling hg
      (C51_scaling E (preIter { st1 with ticks := st1.ticks + 1 }) x (g x) (H x) hU hx hg hH).2.1 hH (hHM x).1 hd
  obtain ⟨step, hstep⟩ := hstep
  have hst := hstep
  rw [hO, hdim] at hst
  obtain ⟨th, hP⟩ := unbounded_data hE hU (preIter { st1 with ticks := st1.ticks + 1 }) x (g x) (H x) D hx hg hH hd
  rw [C51_one_candidate _ _ _ _ _ hU th hP.theta hP.th0] at hst
  have hg0 : g x ≠ 0 := by
    intro h0
    rw [h0, rnorm_eq_zero.mpr rfl] at hgr; linarith
  obtain ⟨p, _, h2, _⟩ := stepSteihaug_unbounded hP hU (hHM x).1 hDp hM0 (fun v => (abs_le.mp ((hHM x).2 v)).2) hg0 n step hst
  exact ⟨step, p, hstep, by rw [trialPoint, hx]; exact h2⟩

/-- **C62, total correctness.** Under the assumptions of `C62_stops`, for an objective that returns value, gradient and Hessian at every real
vector: `minimize` returns normally, after fewer than `iterBound` iterations (`fuel` only has to allow for that many). -/
theorem C62_total (hE : TRParams E mu eta g1 g2 D0) (hU : NoBounds E.lb E.ub) (hn : 0 < n) (O : ℕ → Oracles Num)
    (hO : ∀ k I, E.tr k I = trustRegion (O k) n E.opts.subspaceDim E.opts.stepbackStrat I)
    (hdim : E.opts.subspaceDim = .steihaug) (H : (Fin n → ℝ) → Fin n → Fin n → ℝ) (hR : Returns E f g H) (L M fmin : ℝ) (hL0 : 0 ≤ L) (hM0 : 0 < M)
    (hL : SmoothWith L f g) (hHM : ∀ x, Sym (H x) ∧ ∀ v, |rdot v (rmv (H x) v)| ≤ M * rdot v v)
    (hmin : ∀ y, fmin ≤ f y) (x0 : Fin n → ℝ) (startId : String) (hess0 : Hess0 Num) (st0 : St Num n) (happ : st0.happ = none)
    (hevs : ∀ m, ∃ r, E.evs m = .ok r) (hcond : ∀ m, ∃ r, E.cond m = .ok r) (hfile : ∀ grp ∈ st0.file, grp.1 ≠ startId)
    (ga : ℝ) (hga : E.opts.gatol = fin ga) (hga0 : 0 < ga) (hstart : ga < rnorm (g x0))
    (fuel : ℕ) (hfuel : iterBound mu g1 g2 D0 L M (f x0 - fmin) ga ≤ fuel) :
    ∃ st', minimize E fuel (ofV x0) startId hess0 st0 = .ok st' ∧ st'.iteration < iterBound mu g1 g2 D0 L M (f x0 - fmin) ga := by
  have hT : UsesTrustRegion E := ⟨O, n, hO⟩
  have hB : ∀ j st cur x, LoopHead E (ofV x0) startId hess0 st0 j st cur → st.x = ofV x → BoundedSym M st.hess := by
    intro j st cur x hh hx
    exact ⟨H x, returned_hess hU hR _ startId hess0 st0 happ j st cur hh x hx, hHM x⟩
  exact total_of hn hE hU H hR hL fmin (steihaugConst L M ga hL0 hM0 hga0) hmin x0 startId hess0 st0 ga
    (fun j prev cur step new next cur' hh hp => steihaug_decrease hE hU hT hdim hM0 hga0 hp (fun x => hB j prev cur x hh))
    (steihaug_proposes hE hU hn O hO hdim H M hM0 hHM ga hga0) hga hstart _ (iterBound_eq _ _ _ _) happ hevs hcond hfile fuel hfuel

/-- **C62, reason for stopping.** If moreover the iteration limit is not below the bound, there is no time limit, and the radius floor is not
below the machine precision, then the run stops with one of the three convergence flags. -/
theorem C62_flag (hE : TRParams E mu eta g1 g2 D0) (hU : NoBounds E.lb E.ub) (hn : 0 < n) (O : ℕ → Oracles Num)
    (hO : ∀ k I, E.tr k I = trustRegion (O k) n E.opts.subspaceDim E.opts.stepbackStrat I)
    (hdim : E.opts.subspaceDim = .steihaug) (H : (Fin n → ℝ) → Fin n → Fin n → ℝ) (hR : Returns E f g H) (L M fmin : ℝ) (hL0 : 0 ≤ L) (hM0 : 0 < M)
    (hL : SmoothWith L f g) (hHM : ∀ x, Sym (H x) ∧ ∀ v, |rdot v (rmv (H x) v)| ≤ M * rdot v v)
    (hmin : ∀ y, fmin ≤ f y) (x0 : Fin n → ℝ) (startId : String) (hess0 : Hess0 Num) (st0 : St Num n) (happ : st0.happ = none)
    (hevs : ∀ m, ∃ r, E.evs m = .ok r) (hcond : ∀ m, ∃ r, E.cond m = .ok r) (hfile : ∀ grp ∈ st0.file, grp.1 ≠ startId)
    (ga : ℝ) (hga : E.opts.gatol = fin ga) (hga0 : 0 < ga) (hstart : ga < rnorm (g x0))
    (fuel : ℕ) (hfuel : iterBound mu g1 g2 D0 L M (f x0 - fmin) ga ≤ fuel)
    (hiter : (iterBound mu g1 g2 D0 L M (f x0 - fmin) ga : ℤ) ≤ E.opts.maxiter) (htime : E.opts.maxtime = pinf)
    (hclock : ∀ k, ∃ t : ℝ, E.clock k = fin t) (hfloor : 1 / 4503599627370496 ≤ radiusFloor mu g1 D0 L M ga) :
    ∃ st', minimize E fuel (ofV x0) startId hess0 st0 = .ok st' ∧
      (st'.exitflag = .ftol ∨ st'.exitflag = .xtol ∨ st'.exitflag = .gtol) ∧
      -- the last call of the objective, at `y`, after a step `y - x` from the point `x`; the flags refer to these
      ∃ x y fo, st'.evals.head? = some { arg := ofV y, out := .ok fo } ∧
        (st'.exitflag = .gtol → rnorm (g y) ≤ ga ∨ le (fin (rnorm (g y))) (E.opts.grtol * fin |f x|) = true) ∧
        (st'.exitflag = .ftol → lt (fin |f y - f x|) (E.opts.fatol + E.opts.frtol * fin |f x|) = true) ∧
        (st'.exitflag = .xtol → lt (fin (rnorm (y - x))) E.opts.xtol = true) := by
  have hT : UsesTrustRegion E := ⟨O, n, hO⟩
  have hB : ∀ j st cur x, LoopHead E (ofV x0) startId hess0 st0 j st cur → st.x = ofV x → BoundedSym M st.hess := by
    intro j st cur x hh hx
    exact ⟨H x, returned_hess hU hR _ startId hess0 st0 happ j st cur hh x hx, hHM x⟩
  exact flag_of hn hE hU H hR hL fmin (steihaugConst L M ga hL0 hM0 hga0) hmin x0 startId hess0 st0 ga
    (fun j prev cur step new next cur' hh hp => steihaug_decrease hE hU hT hdim hM0 hga0 hp (fun x => hB j prev cur x hh))
    (steihaug_proposes hE hU hn O hO hdim H M hM0 hHM ga hga0) hga hstart _ (iterBound_eq _ _ _ _) happ hevs hcond hfile fuel hfuel hiter htime hclock hfloor

/-- **C62, stationarity.** With the function and step tolerances and the relative gradient tolerance switched off, the run stops with flag `gtol`
and the point evaluated last has a gradient not longer than `gatol`. -/
theorem C62_gtol (hE : TRParams E mu eta g1 g2 D0) (hU : NoBounds E.lb E.ub) (hn : 0 < n) (O : ℕ → Oracles Num)
    (hO : ∀ k I, E.tr k I = trustRegion (O k) n E.opts.subspaceDim E.opts.stepbackStrat I)
    (hdim : E.opts.subspaceDim = .steihaug) (H : (Fin n → ℝ) → Fin n → Fin n → ℝ) (hR : Returns E f g H) (L M fmin : ℝ) (hL0 : 0 ≤ L) (hM0 : 0 < M)
    (hL : SmoothWith L f g) (hHM : ∀ x, Sym (H x) ∧ ∀ v, |rdot v (rmv (H x) v)| ≤ M * rdot v v)
    (hmin : ∀ y, fmin ≤ f y) (x0 : Fin n → ℝ) (startId : String) (hess0 : Hess0 Num) (st0 : St Num n) (happ : st0.happ = none)
    (hevs : ∀ m, ∃ r, E.evs m = .ok r) (hcond : ∀ m, ∃ r, E.cond m = .ok r) (hfile : ∀ grp ∈ st0.file, grp.1 ≠ startId)
    (ga : ℝ) (hga : E.opts.gatol = fin ga) (hga0 : 0 < ga) (hstart : ga < rnorm (g x0))
    (fuel : ℕ) (hfuel : iterBound mu g1 g2 D0 L M (f x0 - fmin) ga ≤ fuel)
    (hiter : (iterBound mu g1 g2 D0 L M (f x0 - fmin) ga : ℤ) ≤ E.opts.maxiter) (htime : E.opts.maxtime = pinf)
    (hclock : ∀ k, ∃ t : ℝ, E.clock k = fin t) (hfloor : 1 / 4503599627370496 ≤ radiusFloor mu g1 D0 L M ga)
    (hfa : E.opts.fatol = fin 0) (hfr : E.opts.frtol = fin 0) (hxt : E.opts.xtol = fin 0) (hgr : E.opts.grtol = fin 0) :
    ∃ st', minimize E fuel (ofV x0) startId hess0 st0 = .ok st' ∧ st'.exitflag = .gtol ∧
      ∃ y fo, st'.evals.head? = some { arg := ofV y, out := .ok fo } ∧ rnorm (g y) ≤ ga := by
  obtain ⟨st', h1, h2, x, y, fo, h3, h4, h5, h6⟩ := C62_flag hE hU hn O hO hdim H hR L M fmin hL0 hM0 hL hHM hmin x0 startId hess0 st0 happ hevs hcond hfile ga hga
    hga0 hstart fuel hfuel hiter htime hclock hfloor
  refine ⟨st', h1, ?_⟩
  rcases h2 with h2 | h2 | h2
  · exfalso
    have h := h5 h2
    rw [hfa, hfr] at h
    simp at h
    linarith [abs_nonneg (f y - f x)]
  · exfalso
    have h := h6 h2
    rw [hxt] at h
    simp at h
    linarith [rnorm_nonneg (y - x)]
  · refine ⟨h2, y, fo, h3, ?_⟩
    rcases h4 h2 with h | h
    · exact h
    · rw [hgr] at h
      simp at h; linarith

end Fides
