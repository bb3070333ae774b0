import Verif.Lemmas.Quadratic
import Verif.Props.Run
import Verif.Props.NewtonExamples

/-!
# C69: strictly convex quadratics are minimized exactly, in a number of iterations that grows like a logarithm
-/

namespace Fides
open Num Spec
variable {n : ℕ} {E : Env Num n} {mu eta g1 g2 D0 c : ℝ} {b : Fin n → ℝ} {A : Fin n → Fin n → ℝ}

/-- the loop heads of a run on a strictly convex quadratic -/
theorem quad_head (hE : TRParams E mu eta g1 g2 D0) (heta : eta ≤ 1) (hU : NoBounds E.lb E.ub) (O : ℕ → Oracles Num) (hX : ∀ k, ExactRoutines (O k)) (fuel : ℕ)
    (hO : ∀ k I, E.tr k I = trustRegion (O k) fuel E.opts.subspaceDim E.opts.stepbackStrat I)
    (hdim : E.opts.subspaceDim = .two ∨ E.opts.subspaceDim = .full) (hS : Sym A) (hpd : PD A) (hR : Returns E (quadF c b A) (quadG b A) fun _ => A)
    (x0 : Fin n → ℝ) (startId : String) (hess0 : Hess0 Num) (st0 : St Num n) (happ : st0.happ = none)
    (ga : ℝ) (hga : E.opts.gatol = fin ga) (hga0 : 0 ≤ ga) (hstart : ga < rnorm (quadG b A x0)) (xs : Fin n → ℝ) (hs : quadG b A xs = 0)
    (k : ℕ) (st : St Num n) (cur : Funout Num n) (h : LoopHead E (ofV x0) startId hess0 st0 k st cur) :
    ∃ (x : Fin n → ℝ) (D : ℝ), st.x = ofV x ∧ st.fval = fin (quadF c b A x) ∧ st.grad = ofV (quadG b A x) ∧ st.hess = ofM A ∧ st.delta = fin D ∧ D0 ≤ D ∧
      quadF c b A x ≤ quadF c b A x0 ∧ (x = xs ∨ D = D0 * g2 ^ k) ∧ (st.converged = false → x ≠ xs) := by
  have hev := hR.evaluates
  have hgr : ∀ k st cur, LoopHead E (ofV x0) startId hess0 st0 k st cur → st.converged = false → ∀ gr, st.grad = ofV gr → ga < rnorm gr :=
    fun k st cur hh hc gr hg => head_gradient (ofV x0) startId hess0 st0 ga hga (fun s c gr hs hg => by
      have h2 := (start_values hU hev x0 startId hess0 st0 s c hs).2.2
      rw [hg, ofV_inj] at h2
      rw [h2]; exact hstart) k st cur hh hc gr hg
  have hne : ∀ k st cur, LoopHead E (ofV x0) startId hess0 st0 k st cur → ∀ x, st.grad = ofV (quadG b A x) → st.converged = false → x ≠ xs := by
    rintro k st cur hh x hg hc rfl
    have := hgr k st cur hh hc _ hg
    rw [hs, rnorm_eq_zero.mpr rfl] at this
    linarith
  induction k generalizing st cur with
  | zero =>
    obtain ⟨h1, h2, h3⟩ := start_values hU hev x0 startId hess0 st0 st cur h
    have hd : st.delta = fin D0 := by rw [← hE.deltaInit]; exact start_delta E _ startId hess0 st0 st cur h
    exact ⟨x0, D0, h1, h2, h3, returned_hess hU hR _ startId hess0 st0 happ 0 st cur h x0 h1, hd, le_rfl, le_rfl, Or.inr (by simp), hne 0 st cur h x0 h3⟩
  | succ k ih =>
    obtain ⟨prev, cur0, step, new, hh, hp⟩ := loopHead_pass E _ startId hess0 st0 k st cur h
    obtain ⟨x, D, h1, h2, h3, h4, h5, h6, h7, h8, h9⟩ := ih prev cur0 hh
    have hx := h9 (continues_live E _ _ hp.continues)
    have hg0 : quadG b A x ≠ 0 := by
      intro h0
      have := hgr k prev cur0 hh (continues_live E _ _ hp.continues) _ h3
      rw [h0, rnorm_eq_zero.mpr rfl] at this
      linarith
    obtain ⟨p, -, -, a1, a2, a3, -, a5, -, a7⟩ := quad_pass hE heta hU O hX fuel hO hdim hS hpd hev hp x xs D h1 h2 h3 h4 h5 (hE.D0_pos.trans_le h6) hs hg0
    have hD := h8.resolve_left hx
    have hgD : D ≤ g2 * D := by
      have := hE.g2_ge
      have := hE.D0_pos
      nlinarith
    have hH := returned_hess hU hR _ startId hess0 st0 happ (k + 1) st cur h _ a1
    rcases a7 with ⟨e, hd | hd⟩ | ⟨_, hd⟩
    · exact ⟨x + p, D, a1, a2, a3, hH, hd, h6, by linarith, Or.inl e, hne _ st cur h _ a3⟩
    · exact ⟨x + p, g2 * D, a1, a2, a3, hH, hd, by linarith, by linarith, Or.inl e, hne _ st cur h _ a3⟩
    · exact ⟨x + p, g2 * D, a1, a2, a3, hH, hd, by linarith, by linarith, Or.inr (by rw [hD, pow_succ]; ring), hne _ st cur h _ a3⟩

/-- **C69, every iteration.** Unbounded problems whose objective is the strictly convex quadratic `c + b·x + x·Ax/2` with exact gradient and
Hessian, default or full-space solver, exact arithmetic and linear algebra: in every iteration of every run that does not start at a point
satisfying the gradient tolerance, the ratio of actual and predicted reduction is exactly 1, the step is accepted and reduces the objective,
and the radius does not shrink; the new point is the minimizer if the minimizer is within the radius; if the new point is not the minimizer
then the step is as long as the radius, and the radius is multiplied by `gamma2`. -/
theorem C69_step (hE : TRParams E mu eta g1 g2 D0) (heta : eta ≤ 1) (hU : NoBounds E.lb E.ub) (O : ℕ → Oracles Num) (hX : ∀ k, ExactRoutines (O k)) (fuel : ℕ)
    (hO : ∀ k I, E.tr k I = trustRegion (O k) fuel E.opts.subspaceDim E.opts.stepbackStrat I)
    (hdim : E.opts.subspaceDim = .two ∨ E.opts.subspaceDim = .full) (hS : Sym A) (hpd : PD A) (hR : Returns E (quadF c b A) (quadG b A) fun _ => A)
    (x0 : Fin n → ℝ) (startId : String) (hess0 : Hess0 Num) (st0 : St Num n) (happ : st0.happ = none)
    (ga : ℝ) (hga : E.opts.gatol = fin ga) (hga0 : 0 ≤ ga) (hstart : ga < rnorm (quadG b A x0)) (xs : Fin n → ℝ) (hs : quadG b A xs = 0)
    (k : ℕ) (prev next : St Num n) (cur cur' new : Funout Num n) (step : Step Num n)
    (h : LoopHead E (ofV x0) startId hess0 st0 k prev cur) (hp : Pass E prev cur step new next cur') :
    ∃ (x y : Fin n → ℝ) (D D' : ℝ), prev.x = ofV x ∧ next.x = ofV y ∧ trialPoint prev step = ofV y ∧ next.trRatio = fin 1 ∧
      quadF c b A y < quadF c b A x ∧ prev.delta = fin D ∧ next.delta = fin D' ∧ D = D0 * g2 ^ k ∧ (D' = D ∨ D' = g2 * D) ∧
      (rnorm (xs - x) ≤ D → y = xs) ∧ (y ≠ xs → rnorm (y - x) = D ∧ D' = g2 * D) := by
  obtain ⟨x, D, h1, h2, h3, h4, h5, h6, h7, h8, h9⟩ := quad_head hE heta hU O hX fuel hO hdim hS hpd hR x0 startId hess0 st0 happ ga hga hga0 hstart xs hs k prev cur h
  have hx := h9 (continues_live E _ _ hp.continues)
  have hg0 : quadG b A x ≠ 0 := by
    intro h0
    exact hx (quadF_unique hS hpd c b xs x hs (by rw [quadF_min hS c b x xs h0]; have := hpd (xs - x) (sub_ne_zero.mpr hx.symm); linarith))
  obtain ⟨p, -, a0, a1, a2, a3, a4, a5, a6, a7⟩ :=
    quad_pass hE heta hU O hX fuel hO hdim hS hpd hR.evaluates hp x xs D h1 h2 h3 h4 h5 (hE.D0_pos.trans_le h6) hs hg0
  have hD := h8.resolve_left hx
  have hpx : x + p - x = p := by funext i; simp
  rcases a7 with ⟨e, hd | hd⟩ | ⟨hl, hd⟩
  · exact ⟨x, x + p, D, D, h1, a1, a0, a4, a5, h5, hd, hD, Or.inl rfl, a6, fun hn => absurd e hn⟩
  · exact ⟨x, x + p, D, g2 * D, h1, a1, a0, a4, a5, h5, hd, hD, Or.inr rfl, a6, fun hn => absurd e hn⟩
  · exact ⟨x, x + p, D, g2 * D, h1, a1, a0, a4, a5, h5, hd, hD, Or.inr rfl, a6, fun _ => ⟨by rw [hpx]; exact hl, rfl⟩⟩

theorem quad_stops (hE : TRParams E mu eta g1 g2 D0) (heta : eta ≤ 1) (hU : NoBounds E.lb E.ub) (O : ℕ → Oracles Num) (hX : ∀ k, ExactRoutines (O k)) (fuel : ℕ)
    (hO : ∀ k I, E.tr k I = trustRegion (O k) fuel E.opts.subspaceDim E.opts.stepbackStrat I)
    (hdim : E.opts.subspaceDim = .two ∨ E.opts.subspaceDim = .full) (hS : Sym A) (m : ℝ) (hm : 0 < m) (hlow : ∀ v, m * rdot v v ≤ rdot v (rmv A v))
    (hR : Returns E (quadF c b A) (quadG b A) fun _ => A)
    (x0 : Fin n → ℝ) (startId : String) (hess0 : Hess0 Num) (st0 : St Num n) (happ : st0.happ = none)
    (ga : ℝ) (hga : E.opts.gatol = fin ga) (hga0 : 0 ≤ ga) (hstart : ga < rnorm (quadG b A x0)) (xs : Fin n → ℝ) (hs : quadG b A xs = 0)
    (K : ℕ) (hK : 2 * (quadF c b A x0 - quadF c b A xs) ≤ m * (D0 * g2 ^ K) ^ 2)
    (k : ℕ) (st : St Num n) (cur : Funout Num n) (h : LoopHead E (ofV x0) startId hess0 st0 k st cur) : k < K + 2 := by
  have hpd : PD A := fun v hv => lt_of_lt_of_le (mul_pos hm (rdot_self_pos hv)) (hlow v)
  by_contra hcon
  push Not at hcon
  obtain ⟨st2, cur2, h2⟩ := loopHead_prefix E _ startId hess0 st0 k st cur h (K + 2) hcon
  obtain ⟨st1, cur1, step1, new1, hh1, hp1⟩ := loopHead_pass E _ startId hess0 st0 (K + 1) st2 cur2 h2
  obtain ⟨sta, cura, stepa, newa, hha, hpa⟩ := loopHead_pass E _ startId hess0 st0 K st1 cur1 hh1
  obtain ⟨x, D, h1, -, -, -, h5, -, h7, -, -⟩ :=
    quad_head hE heta hU O hX fuel hO hdim hS hpd hR x0 startId hess0 st0 happ ga hga hga0 hstart xs hs K sta cura hha
  obtain ⟨x1, _, b1, -, -, -, -, -, -, -, b9⟩ :=
    quad_head hE heta hU O hX fuel hO hdim hS hpd hR x0 startId hess0 st0 happ ga hga hga0 hstart xs hs (K + 1) st1 cur1 hh1
  obtain ⟨x', y, D', _, a1, a2, -, -, -, a3, -, a4, -, a5, -⟩ :=
    C69_step hE heta hU O hX fuel hO hdim hS hpd hR x0 startId hess0 st0 happ ga hga hga0 hstart xs hs K sta st1 cura cur1 newa stepa hha hpa
  have e1 : x' = x := ofV_inj.mp (a1.symm.trans h1)
  have e2 : y = x1 := ofV_inj.mp (a2.symm.trans b1)
  subst e1 e2
  apply b9 (continues_live E _ _ hp1.continues)
  apply a5
  rw [a4]
  have hg2 : 0 < g2 := by have := hE.g2_ge; linarith
  have hpos : 0 ≤ D0 * g2 ^ K := (mul_pos hE.D0_pos (pow_pos hg2 _)).le
  rw [rnorm_le_iff hpos]
  have h8 := quadF_min hS c b xs x' hs
  have h9 := hlow (x' - xs)
  have e3 : rdot (xs - x') (xs - x') = rdot (x' - xs) (x' - xs) := by
    rw [← neg_sub x' xs, neg_rdot, rdot_neg, neg_neg]
  have h10 : m * rdot (xs - x') (xs - x') ≤ m * (D0 * g2 ^ K) ^ 2 := by rw [e3]; linarith
  have := le_of_mul_le_mul_left h10 hm
  nlinarith

/-- the solver makes a proposal -/
theorem quad_proposes (hE : TRParams E mu eta g1 g2 D0) (hU : NoBounds E.lb E.ub) (O : ℕ → Oracles Num) (hX : ∀ k, ExactRoutines (O k)) (fuel : ℕ)
    (hO : ∀ k I, E.tr k I = trustRegion (O k) fuel E.opts.subspaceDim E.opts.stepbackStrat I)
    (hdim : E.opts.subspaceDim = .two ∨ E.opts.subspaceDim = .full) (hS : Sym A) (hpd : PD A) (ga : ℝ) (hga0 : 0 ≤ ga) (xs : Fin n → ℝ) (hs : quadG b A xs = 0) :
    Proposes E (quadG b A) (fun _ => A) ga := by
  intro st1 x D hx hg hH hd hDp hgr
  have hg0 : quadG b A x ≠ 0 := by
    intro h0
    rw [h0, rnorm_eq_zero.mpr rfl] at hgr; linarith
  obtain ⟨step, hs', p, hN⟩ := newton_step (g := quadG b A) hE hU (O st1.proposals) (hX _) fuel E.opts.stepbackStrat hdim
    (preIter { st1 with ticks := st1.ticks + 1 }) x D hx hg hd hDp A hH hS hpd hg0 _ (quadG_newton A b xs x hs)
  exact ⟨step, p, by rw [hO]; exact hs', by rw [trialPoint, hx]; exact hN.trial⟩

/-- **C69, number of iterations.** If moreover all curvatures of the quadratic are at least `m > 0`, then `minimize` returns normally, whatever
the tolerances and limits, after at most `K + 1` iterations, for every `K` with `2 (f(x0) - min f) ≤ m (delta_init * gamma2^K)^2`. -/
theorem C69_total (hn : 0 < n) (hE : TRParams E mu eta g1 g2 D0) (heta : eta ≤ 1) (hU : NoBounds E.lb E.ub) (O : ℕ → Oracles Num) (hX : ∀ k, ExactRoutines (O k)) (fuel : ℕ)
    (hO : ∀ k I, E.tr k I = trustRegion (O k) fuel E.opts.subspaceDim E.opts.stepbackStrat I)
    (hdim : E.opts.subspaceDim = .two ∨ E.opts.subspaceDim = .full) (hS : Sym A) (m : ℝ) (hm : 0 < m) (hlow : ∀ v, m * rdot v v ≤ rdot v (rmv A v))
    (hR : Returns E (quadF c b A) (quadG b A) fun _ => A)
    (x0 : Fin n → ℝ) (startId : String) (hess0 : Hess0 Num) (st0 : St Num n) (happ : st0.happ = none)
    (hevs : ∀ m, ∃ r, E.evs m = .ok r) (hcond : ∀ m, ∃ r, E.cond m = .ok r) (hfile : ∀ grp ∈ st0.file, grp.1 ≠ startId)
    (ga : ℝ) (hga : E.opts.gatol = fin ga) (hga0 : 0 ≤ ga) (hstart : ga < rnorm (quadG b A x0)) (xs : Fin n → ℝ) (hs : quadG b A xs = 0)
    (K : ℕ) (hK : 2 * (quadF c b A x0 - quadF c b A xs) ≤ m * (D0 * g2 ^ K) ^ 2) (loops : ℕ) (hloops : K + 2 ≤ loops) :
    ∃ st', minimize E loops (ofV x0) startId hess0 st0 = .ok st' ∧ st'.iteration ≤ K + 1 := by
  have hpd : PD A := fun v hv => lt_of_lt_of_le (mul_pos hm (rdot_self_pos hv)) (hlow v)
  obtain ⟨st', h1, h2⟩ := total_core hn hU (fun _ => A) hR x0 startId hess0 st0 D0 ga (fun _ st _ _ => quad_proposes hE hU O hX fuel hO hdim hS hpd ga hga0 xs hs st) hga hstart (K + 2)
    (quad_stops hE heta hU O hX fuel hO hdim hS m hm hlow hR x0 startId hess0 st0 happ ga hga hga0 hstart xs hs K hK)
    (fun k st cur hh => by
      obtain ⟨x, D, h1, h2, h3, h4, h5, h6, h7, h8, h9⟩ :=
        quad_head hE heta hU O hX fuel hO hdim hS hpd hR x0 startId hess0 st0 happ ga hga hga0 hstart xs hs k st cur hh
      exact ⟨x, D, h1, (head_values hU hR.evaluates _ startId hess0 st0 k st cur hh x h1).1, h2, h3, h5, h6, hE.D0_pos.trans_le h6⟩)
    happ hevs hcond hfile loops hloops
  exact ⟨st', h1, by omega⟩

/-- **C69, exactness.** With all tolerances switched off, no time limit, an iteration limit above `K + 1` and an initial radius above the machine
precision, `minimize` stops with flag `gtol` after at most `K + 1` iterations; the current point, and the point and the value reported as best, are
exactly the minimizer and the minimum of the quadratic. -/
theorem C69_exact (hn : 0 < n) (hE : TRParams E mu eta g1 g2 D0) (heta : eta ≤ 1) (hU : NoBounds E.lb E.ub) (O : ℕ → Oracles Num) (hX : ∀ k, ExactRoutines (O k)) (fuel : ℕ)
    (hO : ∀ k I, E.tr k I = trustRegion (O k) fuel E.opts.subspaceDim E.opts.stepbackStrat I)
    (hdim : E.opts.subspaceDim = .two ∨ E.opts.subspaceDim = .full) (hS : Sym A) (m : ℝ) (hm : 0 < m) (hlow : ∀ v, m * rdot v v ≤ rdot v (rmv A v))
    (hR : Returns E (quadF c b A) (quadG b A) fun _ => A)
    (x0 : Fin n → ℝ) (startId : String) (hess0 : Hess0 Num) (st0 : St Num n) (happ : st0.happ = none)
    (hevs : ∀ m, ∃ r, E.evs m = .ok r) (hcond : ∀ m, ∃ r, E.cond m = .ok r) (hfile : ∀ grp ∈ st0.file, grp.1 ≠ startId)
    (hga : E.opts.gatol = fin 0) (hgr : E.opts.grtol = fin 0) (hfa : E.opts.fatol = fin 0) (hfr : E.opts.frtol = fin 0) (hxt : E.opts.xtol = fin 0)
    (xs : Fin n → ℝ) (hs : quadG b A xs = 0) (hstart : x0 ≠ xs)
    (K : ℕ) (hK : 2 * (quadF c b A x0 - quadF c b A xs) ≤ m * (D0 * g2 ^ K) ^ 2) (loops : ℕ) (hloops : K + 2 ≤ loops)
    (hiter : (K : ℤ) + 2 ≤ E.opts.maxiter) (htime : E.opts.maxtime = pinf) (hclock : ∀ k, ∃ t : ℝ, E.clock k = fin t) (hD0 : 1 / 4503599627370496 ≤ D0) :
    ∃ st', minimize E loops (ofV x0) startId hess0 st0 = .ok st' ∧ st'.exitflag = .gtol ∧ st'.iteration ≤ K + 1 ∧
      st'.x = ofV xs ∧ st'.xMin = ofV xs ∧ st'.fvalMin = fin (quadF c b A xs) ∧ st'.gradMin = ofV 0 ∧ ∀ y, quadF c b A xs ≤ quadF c b A y := by
  have hpd : PD A := fun v hv => lt_of_lt_of_le (mul_pos hm (rdot_self_pos hv)) (hlow v)
  have hst : 0 < rnorm (quadG b A x0) := by
    apply rnorm_pos
    intro h0
    exact hstart (quadF_unique hS hpd c b xs x0 hs (by rw [quadF_min hS c b x0 xs h0]; have := hpd (xs - x0) (sub_ne_zero.mpr hstart.symm); linarith))
  have hstop := quad_stops hE heta hU O hX fuel hO hdim hS m hm hlow hR x0 startId hess0 st0 happ 0 hga le_rfl hst xs hs K hK
  have hhead := quad_head hE heta hU O hX fuel hO hdim hS hpd hR x0 startId hess0 st0 happ 0 hga le_rfl hst xs hs
  have hstep := C69_step hE heta hU O hX fuel hO hdim hS hpd hR x0 startId hess0 st0 happ 0 hga le_rfl hst xs hs
  obtain ⟨st', hmin, hfl, x, y, fo, -, h4, h5, h6⟩ := flag_core hn hU (fun _ => A) hR x0 startId hess0 st0 D0 0
    (fun _ st _ _ => quad_proposes hE hU O hX fuel hO hdim hS hpd 0 le_rfl xs hs st) hga hst (K + 2) hstop
    (fun k st cur hh => by
      obtain ⟨x, D, h1, h2, h3, h4, h5, h6, h7, h8, h9⟩ := hhead k st cur hh
      exact ⟨x, D, h1, (head_values hU hR.evaluates _ startId hess0 st0 k st cur hh x h1).1, h2, h3, h5, h6, hE.D0_pos.trans_le h6⟩)
    (fun k prev cur step new next cur' hh hp x D hx hg hd hD hgr => by
      obtain ⟨x', D', h1, h2, h3, h4, h5, -⟩ := hhead k prev cur hh
      have e1 : x' = x := ofV_inj.mp (h1.symm.trans hx)
      have e2 : D' = D := by rw [h5] at hd; exact fin_inj.mp hd
      subst e1 e2
      have hg0 : quadG b A x' ≠ 0 := by
        intro h0
        rw [h0, rnorm_eq_zero.mpr rfl] at hgr; exact lt_irrefl _ hgr
      obtain ⟨p, a1, a2, -⟩ := quad_pass hE heta hU O hX fuel hO hdim hS hpd hR.evaluates hp x' xs D' h1 h2 h3 h4 h5 hD hs hg0
      exact ⟨p, a1, a2⟩)
    happ hevs hcond hfile loops hloops (by push_cast; exact hiter) htime hclock hD0
  have hgt : st'.exitflag = .gtol := by
    rcases hfl with hfl | hfl | hfl
    · exfalso
      have h := h5 hfl
      rw [hfa, hfr] at h
      simp at h
      linarith [abs_nonneg (quadF c b A y - quadF c b A x)]
    · exfalso
      have h := h6 hfl
      rw [hxt] at h
      simp at h
      linarith [rnorm_nonneg (y - x)]
    · exact hfl
  refine ⟨st', hmin, hgt, ?_⟩
  obtain ⟨k, st1, cur, st2, fl, hk, hh, hc, rfl⟩ := run_end E (ofV x0) startId hess0 st0 loops st' hmin
  have hi := headInv E _ startId hess0 st0 k st1 cur hh
  have hkk := hstop k st1 cur hh
  -- the run ends because it has converged
  have hend : st2 = st1 ∧ st1.converged = true := by
    rcases checkContinue_false E st1 st2 hc with ⟨hcv, rfl⟩ | ⟨_, hm, rfl⟩ | ⟨_, _, ht, rfl⟩ | ⟨_, _, hdl, rfl⟩
    · exact ⟨rfl, hcv⟩
    · cases hgt
    · cases hgt
    · cases hgt
  obtain ⟨rfl, hcv⟩ := hend
  -- and the last point has gradient zero
  obtain ⟨xl, D, l1, l2, l3, -, -, -, -, -, -⟩ := hhead k st2 cur hh
  have hxl : xl = xs := by
    cases k with
    | zero => rw [loopHead_start_converged E _ startId hess0 st0 _ _ hh] at hcv; cases hcv
    | succ k =>
      obtain ⟨prev, cur0, step, new, hh0, hp⟩ := loopHead_pass E _ startId hess0 st0 k _ cur hh
      have hF := pass_facts E _ _ _ _ _ _ hp
      obtain ⟨x', y', D1, D2, b1, b2, b3, b4, -⟩ := hstep k prev st2 cur0 cur new step hh0 hp
      have hy : xl = y' := ofV_inj.mp (l1.symm.trans b2)
      subst hy
      obtain ⟨-, hnf, hng⟩ := pass_evaluates hR.evaluates hp xl b3
      have hfl2 := hF.exitflag
      have hcc := hF.converged
      rw [hcv] at hcc
      have hgt' : st2.exitflag = .gtol := hgt
      rcases checkConvergence_cases E step new (radiusStep E prev step new).2 with ⟨_, _, h2⟩ | ⟨_, _, h2⟩ | ⟨h1, h2⟩ | h2
      · rw [h2, hgt'] at hfl2; cases hfl2
      · rw [h2, hgt'] at hfl2; cases hfl2
      · rw [hng, hga, hgr, norm_ofV] at h1
        have hgz : rnorm (quadG b A xl) ≤ 0 := by
          have hrf : (radiusStep E prev step new).2.fval = prev.fval := by
            unfold radiusStep updateTrRadius
            simp only
            split
            · rfl
            · simp only
              split <;> split <;> first | rfl | (split <;> first | rfl | (split <;> rfl))
          rw [hrf] at h1
          obtain ⟨x'', _, c1, c2, -⟩ := hhead k prev cur0 hh0
          rw [c2] at h1
          simpa using h1
        have hg0 : quadG b A xl = 0 := rnorm_eq_zero.mp (le_antisymm hgz (rnorm_nonneg _))
        by_contra hne
        exact hne (quadF_unique hS hpd c b xs xl hs (by rw [quadF_min hS c b xl xs hg0]; have := hpd (xs - xl) (sub_ne_zero.mpr (Ne.symm hne)); linarith))
      · rw [h2] at hcc; cases hcc
  subst hxl
  -- the best evaluation is the last one
  obtain ⟨l, hl1, hl2⟩ := evals_real hU hR.evaluates x0 startId hess0 st0 (fun k prev cur step new next cur' hh hp => by
    obtain ⟨_, y', _, _, _, _, b3, _⟩ := hstep k prev next cur cur' new step hh hp
    exact ⟨y', b3⟩) k st2 cur hh
  obtain ⟨l', fb, m1, m2, m3, m4, m5⟩ := C06_xmin E (ofV x0) startId hess0 st0 loops _ hmin
  obtain ⟨-, -, -, -, -, -, -, hle⟩ := C05_best E (ofV x0) startId hess0 st0 loops _ hmin
  have hll : l' = l := List.append_cancel_right (m1.symm.trans hl1)
  subst hll
  obtain ⟨later, earlier, hsplit, -⟩ := m2
  obtain ⟨yb, q1, q2, q3⟩ := hl2 { arg := fb.x, out := .ok fb } (by rw [hsplit]; simp) fb rfl
  have hyb : yb = xl := by
    apply quadF_unique hS hpd c b xl yb hs
    have hle' : le st2.fvalMin st2.fval = true := hle
    have m3' : st2.fvalMin = fb.fval := m3
    rw [m3', q2, l2, fin_le, decide_eq_true_eq] at hle'
    exact hle'
  subst hyb
  refine ⟨?_, l1, ?_, ?_, ?_, ?_⟩
  · show st2.iteration ≤ _
    rw [hi.iteration]; omega
  · rcases m5 with h | ⟨_, h⟩
    · rw [h, q1]
    · rw [h, C51_nudge _ _ _ hU, q1]
  · rw [m3, q2]
  · rw [m4, q3, hs]
  · intro y
    rw [quadF_min hS c b yb y hs]
    have := hlow (y - yb)
    have := mul_nonneg hm.le (rdot_self_nonneg (y - yb))
    linarith

/-- a positive definite matrix has curvatures bounded away from zero -/
theorem pd_lower (hS : Sym A) (hpd : PD A) : ∃ m : ℝ, 0 < m ∧ ∀ v, m * rdot v v ≤ rdot v (rmv A v) := by
  rcases Nat.eq_zero_or_pos n with rfl | hn
  · exact ⟨1, one_pos, fun v => by simp [rdot]⟩
  · obtain ⟨vals, U, hEig⟩ := exists_isEig A hS
    obtain ⟨j, _, hmin⟩ := argminIdx_fin vals hn
    refine ⟨vals j, pd_vals hpd hEig j, fun v => ?_⟩
    have := eig_psd hEig (lam := -vals j) (fun i => by have := hmin i; linarith) v
    linarith

/-- **C69, every strictly convex quadratic is minimized.** If `gamma2 > 1`, then for every positive definite `A` and every starting point there is a
number of iterations after which every run has ended normally, and with all tolerances switched off it has ended at the minimizer. -/
theorem C69_minimized (hn : 0 < n) (hE : TRParams E mu eta g1 g2 D0) (heta : eta ≤ 1) (hg2 : 1 < g2) (hU : NoBounds E.lb E.ub) (O : ℕ → Oracles Num)
    (hX : ∀ k, ExactRoutines (O k)) (fuel : ℕ) (hO : ∀ k I, E.tr k I = trustRegion (O k) fuel E.opts.subspaceDim E.opts.stepbackStrat I)
    (hdim : E.opts.subspaceDim = .two ∨ E.opts.subspaceDim = .full) (hS : Sym A) (hpd : PD A) (hR : Returns E (quadF c b A) (quadG b A) fun _ => A)
    (x0 : Fin n → ℝ) (startId : String) (hess0 : Hess0 Num) (st0 : St Num n) (happ : st0.happ = none)
    (hevs : ∀ m, ∃ r, E.evs m = .ok r) (hcond : ∀ m, ∃ r, E.cond m = .ok r) (hfile : ∀ grp ∈ st0.file, grp.1 ≠ startId)
    (ga : ℝ) (hga : E.opts.gatol = fin ga) (hga0 : 0 ≤ ga) (hstart : ga < rnorm (quadG b A x0)) :
    ∃ N : ℕ, ∀ loops, N ≤ loops → ∃ st', minimize E loops (ofV x0) startId hess0 st0 = .ok st' ∧ st'.iteration < N ∧
      (ga = 0 → E.opts.grtol = fin 0 → E.opts.fatol = fin 0 → E.opts.frtol = fin 0 → E.opts.xtol = fin 0 → (N : ℤ) ≤ E.opts.maxiter → E.opts.maxtime = pinf →
        (∀ k, ∃ t : ℝ, E.clock k = fin t) → 1 / 4503599627370496 ≤ D0 →
        st'.exitflag = .gtol ∧ ∃ xs, st'.xMin = ofV xs ∧ st'.fvalMin = fin (quadF c b A xs) ∧ ∀ y, y ≠ xs → quadF c b A xs < quadF c b A y) := by
  obtain ⟨m, hm, hlow⟩ := pd_lower hS hpd
  obtain ⟨xs, hxs⟩ := pd_solve hS hpd b
  have hs : quadG b A xs = 0 := by rw [quadG, hxs, add_neg_cancel]
  obtain ⟨K, hK⟩ : ∃ K : ℕ, 2 * (quadF c b A x0 - quadF c b A xs) ≤ m * (D0 * g2 ^ K) ^ 2 := by
    obtain ⟨K, hK⟩ := pow_unbounded_of_one_lt (max 1 (2 * (quadF c b A x0 - quadF c b A xs) / (m * D0 ^ 2))) hg2
    refine ⟨K, ?_⟩
    have hmD : 0 < m * D0 ^ 2 := mul_pos hm (pow_pos hE.D0_pos 2)
    have h1 : 1 < g2 ^ K := (le_max_left _ _).trans_lt hK
    have h2 := (le_max_right _ _).trans_lt hK
    rw [div_lt_iff₀ hmD] at h2
    have h3 : g2 ^ K * (m * D0 ^ 2) ≤ (g2 ^ K) ^ 2 * (m * D0 ^ 2) := mul_le_mul_of_nonneg_right (by nlinarith) hmD.le
    have e : m * (D0 * g2 ^ K) ^ 2 = (g2 ^ K) ^ 2 * (m * D0 ^ 2) := by ring
    linarith
  refine ⟨K + 2, fun loops hloops => ?_⟩
  obtain ⟨st', h1, h2⟩ := C69_total hn hE heta hU O hX fuel hO hdim hS m hm hlow hR x0 startId hess0 st0 happ hevs hcond hfile ga hga hga0 hstart xs hs K hK loops hloops
  refine ⟨st', h1, by omega, ?_⟩
  rintro rfl hgr hfa hfr hxt hiter htime hclock hD0
  have hne : x0 ≠ xs := by
    rintro rfl
    rw [hs, rnorm_eq_zero.mpr rfl] at hstart
    exact lt_irrefl _ hstart
  obtain ⟨st'', h3, h4, -, -, h5, h6, -, -⟩ := C69_exact hn hE heta hU O hX fuel hO hdim hS m hm hlow hR x0 startId hess0 st0 happ hevs hcond hfile hga hgr hfa hfr
    hxt xs hs hne K hK loops hloops (by push_cast at hiter; exact hiter) htime hclock hD0
  rw [h1] at h3
  cases h3
  refine ⟨h4, xs, h5, h6, fun y hy => ?_⟩
  by_contra hcon
  exact hy (quadF_unique hS hpd c b xs y hs (not_lt.mp hcon))

noncomputable section

open Classical in
/-- an objective that returns `(f x, g x, H x)` at every real vector -/
def objOf (f : (Fin n → ℝ) → ℝ) (g : (Fin n → ℝ) → Fin n → ℝ) (H : (Fin n → ℝ) → Fin n → Fin n → ℝ) (v : Vec Num n) : Ret Num :=
  if h : ∃ x, v = ofV x then .tuple [.scalar (fin (f h.choose)), .ofVec (ofV (g h.choose)), .ofMat (ofM (H h.choose))] else .tuple []

theorem objOf_real (f : (Fin n → ℝ) → ℝ) (g : (Fin n → ℝ) → Fin n → ℝ) (H : (Fin n → ℝ) → Fin n → Fin n → ℝ) (x : Fin n → ℝ) :
    objOf f g H (ofV x) = .tuple [.scalar (fin (f x)), .ofVec (ofV (g x)), .ofMat (ofM (H x))] := by
  have hex : ∃ x', (ofV x : Vec Num n) = ofV x' := ⟨x, rfl⟩
  have hx : hex.choose = x := (ofV_inj.mp hex.choose_spec).symm
  unfold objOf
  rw [dif_pos hex, hx]

/-- default options except for the tolerances, which are switched off, and an iteration limit -/
def quadEnv (n : ℕ) (c : ℝ) (b : Fin n → ℝ) (A : Fin n → Fin n → ℝ) (N : ℕ) : Env Num n :=
  { plainEnv n (objOf (quadF c b A) (quadG b A) fun _ => A) (fun _ => exactRoutines) with
    opts := { (resolveOpts [] : Opts Num) with fatol := fin 0, frtol := fin 0, gatol := fin 0, maxiter := N } }

/-- the assumptions of `C69_exact` hold, with the default trust-region options, for every strictly convex quadratic and every starting point but the
minimizer itself; for instance at most 8 iterations are made if the minimizer is at most 128 away as measured by `2 (f(x0) - min f) / m` -/
example (n : ℕ) (hn : 0 < n) (c : ℝ) (b : Fin n → ℝ) (A : Fin n → Fin n → ℝ) (hS : Sym A) (m : ℝ) (hm : 0 < m) (hlow : ∀ v, m * rdot v v ≤ rdot v (rmv A v))
    (x0 xs : Fin n → ℝ) (hs : quadG b A xs = 0) (h0 : x0 ≠ xs) (hK : 2 * (quadF c b A x0 - quadF c b A xs) ≤ m * 128 ^ 2) :
    ∃ st', minimize (quadEnv n c b A 9) 9 (ofV x0) "0" (.val .none) (St.new (quadEnv n c b A 9).opts none) = .ok st' ∧ st'.exitflag = .gtol ∧ st'.iteration ≤ 8 ∧
      st'.xMin = ofV xs := by
  have hE : TRParams (quadEnv n c b A 9) (1 / 4) (3 / 4) (1 / 4) 2 1 := by
    constructor <;> try (simp only [quadEnv, demo_opts])
    all_goals norm_num
  have hR : Returns (quadEnv n c b A 9) (quadF c b A) (quadG b A) fun _ => A := ⟨rfl, rfl, fun k x => objOf_real (quadF c b A) (quadG b A) (fun _ => A) x⟩
  obtain ⟨st', h1, h2, h3, -, h4, -⟩ := C69_exact hn hE (by norm_num) (fun _ => ⟨rfl, rfl⟩) (fun _ => exactRoutines) (fun _ => exactRoutines_ok) n
    (by intro k I; simp only [quadEnv, plainEnv, demo_opts]) (Or.inl (by simp only [quadEnv, demo_opts])) hS m hm hlow hR x0 "0" (.val .none)
    (St.new (quadEnv n c b A 9).opts none) rfl (fun _ => ⟨_, rfl⟩) (fun _ => ⟨_, rfl⟩) (by intro grp h; simp [St.new] at h) rfl
    (by simp only [quadEnv, demo_opts]) rfl rfl (by simp only [quadEnv, demo_opts]) xs hs h0 7 (by norm_num at hK ⊢; exact hK) 9 (by norm_num)
    (by simp only [quadEnv]; norm_num) (by simp only [quadEnv, demo_opts]) (fun _ => ⟨0, rfl⟩) (by norm_num)
  exact ⟨st', h1, h2, h3, h4⟩

end

end Fides
