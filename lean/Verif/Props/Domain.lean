import Verif.Lemmas.DomainTotal
import Verif.Props.Convergence
import Verif.Props.NewtonConvergence

/-!
# C84: convergence for objectives that are only defined on a part of the space
-/

namespace Fides
open Num Spec
variable {n : ℕ} {E : Env Num n} {dom : Set (Fin n → ℝ)} {f : (Fin n → ℝ) → ℝ} {g : (Fin n → ℝ) → Fin n → ℝ} {mu eta g1 g2 D0 : ℝ}

/-- no point of the run is worse than the first one -/
theorem level_in (hU : NoBounds E.lb E.ub) (hev : EvaluatesIn E dom f g) (x0 : Fin n → ℝ) (startId : String) (hess0 : Hess0 Num) (st0 : St Num n)
    (k : ℕ) (st : St Num n) (cur : Funout Num n) (x : Fin n → ℝ) (hh : LoopHead E (ofV x0) startId hess0 st0 k st cur) (hx : st.x = ofV x) :
    x ∈ levelSet dom f x0 := by
  have key : ∀ k st cur, LoopHead E (ofV x0) startId hess0 st0 k st cur → ∃ v, st.fval = fin v ∧ v ≤ f x0 := by
    intro k
    induction k with
    | zero =>
      intro st cur hh
      exact ⟨f x0, (head_values_in hU hev _ startId hess0 st0 0 st cur hh x0 (start_point hU x0 startId hess0 st0 st cur hh)).2.2.1, le_rfl⟩
    | succ k ih =>
      intro st cur hh
      obtain ⟨prev, cur0, step, new, hh0, hp⟩ := loopHead_pass E _ startId hess0 st0 k st cur hh
      have hF := pass_facts E _ _ _ _ _ _ hp
      obtain ⟨v, hv, hle⟩ := ih prev cur0 hh0
      rcases hF.cases with ⟨hac, _, _, _, h3, _⟩ | ⟨_, _, _, h3, _⟩
      · obtain ⟨h1, h2, _⟩ := accepted_lt E prev step new hac hF.finite1
        have h4 := ((allFinite_iff _ _ _).mp h2).1
        obtain ⟨w, hw⟩ := (isFinite_iff _).mp h4
        rw [hw, hv, fin_lt, decide_eq_true_eq] at h1
        exact ⟨w, by rw [h3, hw], by linarith⟩
      · exact ⟨v, by rw [h3, hv], hle⟩
  obtain ⟨v, hv, hle⟩ := key k st cur hh
  obtain ⟨h1, _, h2, _⟩ := head_values_in hU hev _ startId hess0 st0 k st cur hh x hx
  rw [hv] at h2
  have : v = f x := by injection h2
  exact ⟨h1, this ▸ hle⟩

/-- the constants, with steps kept below `r` -/
theorem CountConst.within {a b b' C c : ℝ} (h : CountConst mu a b b' C c) {r : ℝ} (hr : 0 < r) : CountConst mu a b (min r b') C (min r c) :=
  ⟨h.a_pos, h.b_pos, lt_min hr h.b'_pos, h.C_pos, by rw [h.c_def, min_assoc]⟩

theorem Decreasing.within {M a b b' eps : ℝ} {x0 : Fin n → ℝ} {startId : String} {hess0 : Hess0 Num} {st0 : St Num n}
    (h : Decreasing E g M a b b' eps x0 startId hess0 st0) (r : ℝ) : Decreasing E g M a b (min r b') eps x0 startId hess0 st0 := by
  intro k prev cur step new next cur' hh hp x D hx hg hd hD he
  obtain ⟨B, p, h1, h2, h3, h4, h5, h6, h7⟩ := h k prev cur step new next cur' hh hp x D hx hg hd hD he
  exact ⟨B, p, h1, h2, h3, h4, h5, h6, h7.imp id fun h => (min_le_right _ _).trans h⟩

/-- **C84.** Unbounded problems, Steihaug's solver, exact arithmetic.  Let the objective be defined on a part `dom` of the space only, returning a
value that is not finite (`nan` or an infinity) elsewhere, as objectives with logarithms, roots or failing simulations do.  Let it be bounded below
by `fmin` on `dom`, and smooth on the open balls of radius `r` around the points that are not worse than the initial one (`SmoothNear`), and let
the model Hessians used by the run be symmetric and bounded by `M`.  Then within `domainBound` iterations — a number given by the options, `L`,
`M`, `r`, the distance of the initial value to the lower bound, and `eps` alone — the run visits a point whose gradient is shorter than `eps`;
and every point visited is in `dom`. -/
theorem C84_visits (hE : TRParams E mu eta g1 g2 D0) (hU : NoBounds E.lb E.ub) (hT : UsesTrustRegion E)
    (hdim : E.opts.subspaceDim = .steihaug) (hev : EvaluatesIn E dom f g) (L M r fmin : ℝ) (hL0 : 0 ≤ L) (hM0 : 0 < M) (hr : 0 < r)
    (x0 : Fin n → ℝ) (hL : SmoothNear L r dom (levelSet dom f x0) f g)
    (hmin : ∀ y ∈ dom, fmin ≤ f y) (startId : String) (hess0 : Hess0 Num) (st0 : St Num n)
    (hB : ∀ j st cur x, LoopHead E (ofV x0) startId hess0 st0 j st cur → st.x = ofV x → BoundedSym M st.hess)
    (eps : ℝ) (he : 0 < eps) (k : ℕ) (st : St Num n) (cur : Funout Num n) (h : LoopHead E (ofV x0) startId hess0 st0 k st cur)
    (hk : domainBound mu g1 g2 D0 L M r (f x0 - fmin) eps ≤ k) :
    ∃ j < domainBound mu g1 g2 D0 L M r (f x0 - fmin) eps, ∃ st' cur' x', LoopHead E (ofV x0) startId hess0 st0 j st' cur' ∧
      st'.x = ofV x' ∧ x' ∈ dom ∧ rnorm (g x') < eps := by
  obtain ⟨j, hj, st', cur', x', h1, h2, h3⟩ := visits_in hE hU hev x0 hL fmin ((steihaugConst L M eps hL0 hM0 he).within hr) (min_le_left _ _) hmin startId hess0 st0 eps
    (Decreasing.within (fun j prev cur step new next cur' hh hp => steihaug_decrease hE hU hT hdim hM0 he hp (fun x => hB j prev cur x hh)) r) k st cur h _ rfl hk
  exact ⟨j, hj, st', cur', x', h1, h2, (head_values_in hU hev _ startId hess0 st0 j st' cur' h1 x' h2).1, h3⟩

/-- **C84.** With a positive gradient tolerance `gatol`, and a starting point that does not already satisfy it, such a run makes fewer than
`domainBound` iterations, whatever the iteration limit. -/
theorem C84_stops (hE : TRParams E mu eta g1 g2 D0) (hU : NoBounds E.lb E.ub) (hT : UsesTrustRegion E)
    (hdim : E.opts.subspaceDim = .steihaug) (hev : EvaluatesIn E dom f g) (L M r fmin : ℝ) (hL0 : 0 ≤ L) (hM0 : 0 < M) (hr : 0 < r)
    (x0 : Fin n → ℝ) (hL : SmoothNear L r dom (levelSet dom f x0) f g)
    (hmin : ∀ y ∈ dom, fmin ≤ f y) (startId : String) (hess0 : Hess0 Num) (st0 : St Num n)
    (hB : ∀ j st cur x, LoopHead E (ofV x0) startId hess0 st0 j st cur → st.x = ofV x → BoundedSym M st.hess)
    (ga : ℝ) (hga : E.opts.gatol = fin ga) (hga0 : 0 < ga) (hstart : ga < rnorm (g x0))
    (k : ℕ) (st : St Num n) (cur : Funout Num n) (h : LoopHead E (ofV x0) startId hess0 st0 k st cur) :
    k < domainBound mu g1 g2 D0 L M r (f x0 - fmin) ga :=
  stops_in hE hU hev x0 hL fmin ((steihaugConst L M ga hL0 hM0 hga0).within hr) (min_le_left _ _) hmin startId hess0 st0 ga
    (Decreasing.within (fun j prev cur step new next cur' hh hp => steihaug_decrease hE hU hT hdim hM0 hga0 hp (fun x => hB j prev cur x hh)) r) hga hstart _ rfl k st cur h

/-- **C84, total correctness.** If moreover the objective returns value, gradient and Hessian at every point of `dom`, with Hessians symmetric and
bounded by `M` at the points not worse than the initial one, and a tuple of the same shape whose value and gradient are not finite elsewhere; if
there is room for the iterations, no time limit, and the radius floor is not below the machine precision: then `minimize` returns normally with one
of the three convergence flags.  Flags `ftol` and `gtol` refer to a point of `dom`: for `gtol` its gradient is short, for `ftol` its value differs little
from that of the point before. -/
theorem C84_total (hE : TRParams E mu eta g1 g2 D0) (hU : NoBounds E.lb E.ub) (hn : 0 < n) (O : ℕ → Oracles Num)
    (hO : ∀ k I, E.tr k I = trustRegion (O k) n E.opts.subspaceDim E.opts.stepbackStrat I)
    (hdim : E.opts.subspaceDim = .steihaug) (H : (Fin n → ℝ) → Fin n → Fin n → ℝ) (hR : ReturnsIn E dom f g H)
    (L M r fmin : ℝ) (hL0 : 0 ≤ L) (hM0 : 0 < M) (hr : 0 < r) (x0 : Fin n → ℝ) (hx0 : x0 ∈ dom) (hL : SmoothNear L r dom (levelSet dom f x0) f g)
    (hHM : ∀ x ∈ levelSet dom f x0, Sym (H x) ∧ ∀ v, |rdot v (rmv (H x) v)| ≤ M * rdot v v)
    (hmin : ∀ y ∈ dom, fmin ≤ f y) (startId : String) (hess0 : Hess0 Num) (st0 : St Num n) (happ : st0.happ = none)
    (hevs : ∀ m, ∃ r, E.evs m = .ok r) (hcond : ∀ m, ∃ r, E.cond m = .ok r) (hfile : ∀ grp ∈ st0.file, grp.1 ≠ startId)
    (ga : ℝ) (hga : E.opts.gatol = fin ga) (hga0 : 0 < ga) (hstart : ga < rnorm (g x0))
    (fuel : ℕ) (hfuel : domainBound mu g1 g2 D0 L M r (f x0 - fmin) ga ≤ fuel)
    (hiter : (domainBound mu g1 g2 D0 L M r (f x0 - fmin) ga : ℤ) ≤ E.opts.maxiter) (htime : E.opts.maxtime = pinf)
    (hclock : ∀ k, ∃ t : ℝ, E.clock k = fin t) (hfloor : 1 / 4503599627370496 ≤ domainFloor mu g1 D0 L M r ga)
    (fa fr gr : ℝ) (hfa : E.opts.fatol = fin fa) (hfr : E.opts.frtol = fin fr) (hgrt : E.opts.grtol = fin gr) :
    ∃ st', minimize E fuel (ofV x0) startId hess0 st0 = .ok st' ∧
      (st'.exitflag = .ftol ∨ st'.exitflag = .xtol ∨ st'.exitflag = .gtol) ∧
      -- the last call of the objective, at `y`, after a step `y - x` from the point `x`; the flags refer to these
      ∃ x y fo, x ∈ levelSet dom f x0 ∧ st'.evals.head? = some { arg := ofV y, out := .ok fo } ∧
        (st'.exitflag = .gtol → y ∈ dom ∧ (rnorm (g y) ≤ ga ∨ rnorm (g y) ≤ gr * |f x|)) ∧
        (st'.exitflag = .ftol → y ∈ dom ∧ |f y - f x| < fa + fr * |f x|) ∧
        (st'.exitflag = .xtol → lt (fin (rnorm (y - x))) E.opts.xtol = true) := by
  classical
  have hev := returnsIn_evaluates hR
  have hT : UsesTrustRegion E := ⟨O, n, hO⟩
  let H' : (Fin n → ℝ) → Fin n → Fin n → ℝ := fun x => if x ∈ levelSet dom f x0 then H x else H x0
  have hHM' : ∀ x, Sym (H' x) ∧ ∀ v, |rdot v (rmv (H' x) v)| ≤ M * rdot v v := by
    intro x
    by_cases hx : x ∈ levelSet dom f x0
    · simp only [H', if_pos hx]; exact hHM x hx
    · simp only [H', if_neg hx]; exact hHM x0 ⟨hx0, le_rfl⟩
  have hprop' := steihaug_proposes (g := g) hE hU hn O hO hdim H' M hM0 hHM' ga hga0
  have hlev := level_in hU hev x0 startId hess0 st0
  have hB : ∀ j st cur x, LoopHead E (ofV x0) startId hess0 st0 j st cur → st.x = ofV x → BoundedSym M st.hess := by
    intro j st cur x hh hx
    exact ⟨H x, returned_hess_in hU hR _ startId hess0 st0 happ j st cur hh x hx, hHM x (hlev j st cur x hh hx)⟩
  have hprop : ∀ k st cur, LoopHead E (ofV x0) startId hess0 st0 k st cur → ProposesAt E g H ga st := by
    intro k st cur hh x D hx hg hH hd hD hgr
    refine hprop' st x D hx hg ?_ hd hD hgr
    simp only [H', if_pos (hlev k st cur x hh hx)]
    exact hH
  have hC := (steihaugConst (mu := mu) L M ga hL0 hM0 hga0).within hr
  have hdec : Decreasing E g M (ga / 2) (ga / M) (min r (ga / M)) ga x0 startId hess0 st0 :=
    Decreasing.within (fun j prev cur step new next cur' hh hp => steihaug_decrease hE hU hT hdim hM0 hga0 hp (fun x => hB j prev cur x hh)) r
  exact flag_core_in hn hU hR x0 hx0 startId hess0 st0 _ ga hprop hga hstart _
    (stops_in hE hU hev x0 hL fmin hC (min_le_left _ _) hmin startId hess0 st0 ga hdec hga hstart _ rfl)
    (live_in hE hU hev x0 hL hC (min_le_left _ _) startId hess0 st0 ga hdec hga hstart)
    (fun k prev cur step new next cur' hh hp x D hx hg hd hD hgr => by
      obtain ⟨B, p, _, _, hss, htrial, _⟩ := hdec k prev cur step new _ _ hh hp x D hx hg hd hD hgr.le
      exact ⟨p, hss, htrial⟩) happ hevs hcond hfile fuel hfuel hiter htime hclock hfloor fa fr gr hfa hfr hgrt

/-- **C84, stationarity.** With the function and step tolerances and the relative gradient tolerance switched off, the run stops with flag `gtol`
at a point of `dom` whose gradient is not longer than `gatol`. -/
theorem C84_gtol (hE : TRParams E mu eta g1 g2 D0) (hU : NoBounds E.lb E.ub) (hn : 0 < n) (O : ℕ → Oracles Num)
    (hO : ∀ k I, E.tr k I = trustRegion (O k) n E.opts.subspaceDim E.opts.stepbackStrat I)
    (hdim : E.opts.subspaceDim = .steihaug) (H : (Fin n → ℝ) → Fin n → Fin n → ℝ) (hR : ReturnsIn E dom f g H)
    (L M r fmin : ℝ) (hL0 : 0 ≤ L) (hM0 : 0 < M) (hr : 0 < r) (x0 : Fin n → ℝ) (hx0 : x0 ∈ dom) (hL : SmoothNear L r dom (levelSet dom f x0) f g)
    (hHM : ∀ x ∈ levelSet dom f x0, Sym (H x) ∧ ∀ v, |rdot v (rmv (H x) v)| ≤ M * rdot v v)
    (hmin : ∀ y ∈ dom, fmin ≤ f y) (startId : String) (hess0 : Hess0 Num) (st0 : St Num n) (happ : st0.happ = none)
    (hevs : ∀ m, ∃ r, E.evs m = .ok r) (hcond : ∀ m, ∃ r, E.cond m = .ok r) (hfile : ∀ grp ∈ st0.file, grp.1 ≠ startId)
    (ga : ℝ) (hga : E.opts.gatol = fin ga) (hga0 : 0 < ga) (hstart : ga < rnorm (g x0))
    (fuel : ℕ) (hfuel : domainBound mu g1 g2 D0 L M r (f x0 - fmin) ga ≤ fuel)
    (hiter : (domainBound mu g1 g2 D0 L M r (f x0 - fmin) ga : ℤ) ≤ E.opts.maxiter) (htime : E.opts.maxtime = pinf)
    (hclock : ∀ k, ∃ t : ℝ, E.clock k = fin t) (hfloor : 1 / 4503599627370496 ≤ domainFloor mu g1 D0 L M r ga)
    (hfa : E.opts.fatol = fin 0) (hfr : E.opts.frtol = fin 0) (hxt : E.opts.xtol = fin 0) (hgr : E.opts.grtol = fin 0) :
    ∃ st', minimize E fuel (ofV x0) startId hess0 st0 = .ok st' ∧ st'.exitflag = .gtol ∧
      ∃ y fo, st'.evals.head? = some { arg := ofV y, out := .ok fo } ∧ y ∈ dom ∧ rnorm (g y) ≤ ga := by
  obtain ⟨st', h1, h2, x, y, fo, _, h3, h4, h5, h6⟩ := C84_total hE hU hn O hO hdim H hR L M r fmin hL0 hM0 hr x0 hx0 hL hHM hmin startId hess0 st0 happ hevs hcond
    hfile ga hga hga0 hstart fuel hfuel hiter htime hclock hfloor 0 0 0 hfa hfr hgr
  refine ⟨st', h1, ?_⟩
  rcases h2 with h2 | h2 | h2
  · exfalso
    have h := (h5 h2).2
    linarith [abs_nonneg (f y - f x)]
  · exfalso
    have h := h6 h2
    rw [hxt] at h
    simp at h
    linarith [rnorm_nonneg (y - x)]
  · obtain ⟨h7, h8⟩ := h4 h2
    refine ⟨h2, y, fo, h3, h7, ?_⟩
    rcases h8 with h | h
    · exact h
    · linarith

/-- **C84, the other two solvers.** The same for the default (two-dimensional) and the full-space solver with exact linear algebra and Hessians with
curvatures between `m > 0` and `M` (compare `C63_counterexample`), for `gatol` not below `M` times the solver's tolerance: `minimize` returns normally with
flag `gtol` at a point of `dom` whose gradient is not longer than `gatol`. -/
theorem C84_newton (hE : TRParams E mu eta g1 g2 D0) (hU : NoBounds E.lb E.ub) (hn : 0 < n) (O : ℕ → Oracles Num) (hX : ∀ k, ExactRoutines (O k)) (iters : ℕ)
    (hO : ∀ k I, E.tr k I = trustRegion (O k) iters E.opts.subspaceDim E.opts.stepbackStrat I)
    (hdim : E.opts.subspaceDim = .two ∨ E.opts.subspaceDim = .full) (H : (Fin n → ℝ) → Fin n → Fin n → ℝ) (hR : ReturnsIn E dom f g H)
    (L m M r fmin : ℝ) (hL0 : 0 < L) (hm0 : 0 < m) (hmM : m ≤ M) (hr : 0 < r) (x0 : Fin n → ℝ) (hx0 : x0 ∈ dom) (hL : SmoothNear L r dom (levelSet dom f x0) f g)
    (hHM : ∀ x ∈ levelSet dom f x0, Sym (H x) ∧ ∀ v, m * rdot v v ≤ rdot v (rmv (H x) v) ∧ rdot v (rmv (H x) v) ≤ M * rdot v v)
    (hmin : ∀ y ∈ dom, fmin ≤ f y) (startId : String) (hess0 : Hess0 Num) (st0 : St Num n) (happ : st0.happ = none)
    (hevs : ∀ m, ∃ r, E.evs m = .ok r) (hcond : ∀ m, ∃ r, E.cond m = .ok r) (hfile : ∀ grp ∈ st0.file, grp.1 ≠ startId)
    (ga : ℝ) (hga : E.opts.gatol = fin ga) (hga0 : 0 < ga) (hprec : 1 / 33554432 ≤ ga / M) (hstart : ga < rnorm (g x0))
    (fuel : ℕ) (hfuel : domainNewtonBound mu g1 g2 D0 L m M r (f x0 - fmin) ga ≤ fuel)
    (hiter : (domainNewtonBound mu g1 g2 D0 L m M r (f x0 - fmin) ga : ℤ) ≤ E.opts.maxiter) (htime : E.opts.maxtime = pinf)
    (hclock : ∀ k, ∃ t : ℝ, E.clock k = fin t) (hfloor : 1 / 4503599627370496 ≤ domainNewtonFloor mu g1 D0 L m M r ga)
    (hfa : E.opts.fatol = fin 0) (hfr : E.opts.frtol = fin 0) (hxt : E.opts.xtol = fin 0) (hgr : E.opts.grtol = fin 0) :
    ∃ st', minimize E fuel (ofV x0) startId hess0 st0 = .ok st' ∧ st'.exitflag = .gtol ∧
      ∃ y fo, st'.evals.head? = some { arg := ofV y, out := .ok fo } ∧ y ∈ dom ∧ rnorm (g y) ≤ ga := by
  classical
  have hev := returnsIn_evaluates hR
  let H' : (Fin n → ℝ) → Fin n → Fin n → ℝ := fun x => if x ∈ levelSet dom f x0 then H x else H x0
  have hHM' : ∀ x, Sym (H' x) ∧ ∀ v, m * rdot v v ≤ rdot v (rmv (H' x) v) ∧ rdot v (rmv (H' x) v) ≤ M * rdot v v := by
    intro x
    by_cases hx : x ∈ levelSet dom f x0
    · simp only [H', if_pos hx]; exact hHM x hx
    · simp only [H', if_neg hx]; exact hHM x0 ⟨hx0, le_rfl⟩
  have hprop' := newton_proposes (g := g) hE hU O hX iters hO hdim H' m M hm0 hHM' ga hga0
  have hlev := level_in hU hev x0 startId hess0 st0
  have hB : ∀ j st cur x, LoopHead E (ofV x0) startId hess0 st0 j st cur → st.x = ofV x → BetweenSym m M st.hess := by
    intro j st cur x hh hx
    exact ⟨H x, returned_hess_in hU hR _ startId hess0 st0 happ j st cur hh x hx, hHM x (hlev j st cur x hh hx)⟩
  have hprop : ∀ k st cur, LoopHead E (ofV x0) startId hess0 st0 k st cur → ProposesAt E g H ga st := by
    intro k st cur hh x D hx hg hH hd hD hgr
    refine hprop' st x D hx hg ?_ hd hD hgr
    simp only [H', if_pos (hlev k st cur x hh hx)]
    exact hH
  have hC := (newtonConst (mu := mu) L m M ga hL0 hm0 hmM hga0).within hr
  have hdec : Decreasing E g 0 (m * ga / (2 * M)) (ga / m) (min r (ga / (2 * M))) ga x0 startId hess0 st0 :=
    Decreasing.within (fun j prev cur step new next cur' hh hp => newton_modelDecrease hE hU O hX iters hO hdim hm0 (hm0.trans_le hmM) hga0 hprec hp (fun x => hB j prev cur x hh)) r
  obtain ⟨st', h1, h2, x, y, fo, _, h3, h4, h5, h6⟩ := flag_core_in hn hU hR x0 hx0 startId hess0 st0 _ ga hprop hga hstart _
    (stops_in hE hU hev x0 hL fmin hC (min_le_left _ _) hmin startId hess0 st0 ga hdec hga hstart _ rfl)
    (live_in hE hU hev x0 hL hC (min_le_left _ _) startId hess0 st0 ga hdec hga hstart)
    (fun k prev cur step new next cur' hh hp x D hx hg hd hD hgr => by
      obtain ⟨B, p, _, _, hss, htrial, _⟩ := hdec k prev cur step new _ _ hh hp x D hx hg hd hD hgr.le
      exact ⟨p, hss, htrial⟩) happ hevs hcond hfile fuel hfuel hiter htime hclock hfloor 0 0 0 hfa hfr hgr
  refine ⟨st', h1, ?_⟩
  rcases h2 with h2 | h2 | h2
  · exfalso
    have h := (h5 h2).2
    linarith [abs_nonneg (f y - f x)]
  · exfalso
    have h := h6 h2
    rw [hxt] at h
    simp at h
    linarith [rnorm_nonneg (y - x)]
  · obtain ⟨h7, h8⟩ := h4 h2
    refine ⟨h2, y, fo, h3, h7, ?_⟩
    rcases h8 with h | h
    · exact h
    · linarith

end Fides
