import Verif.Lemmas.BfgsConvex
import Verif.Props.NoException
import Verif.Props.NewtonExamples
import Mathlib.Analysis.SpecialFunctions.Sigmoid

/-!
# C89: BFGS converges on convex functions, from every starting point
-/

namespace Fides
open Num Spec
variable {n : ℕ} {E : Env Num n} {f : (Fin n → ℝ) → ℝ} {g : (Fin n → ℝ) → Fin n → ℝ} {mu eta g1 g2 D0 : ℝ}

/-- **C89, the approximation.** Exact arithmetic, no bounds, any subproblem solver: if the objective is convex with `L`-Lipschitz gradient, then the BFGS approximation used in iteration
`k` is a symmetric positive definite real matrix, and its quadratic form is at most `m0 + L * k` times the squared length (`m0` bounds the initial one). -/
theorem C89_growth_bound (hU : NoBounds E.lb E.ub) (hev : Evaluates E f g) (L m0 : ℝ) (hL0 : 0 < L) (hL : SmoothWith L f g) (hc : AboveTangents f g) (x0 : Fin n → ℝ) (startId : String)
    (hess0 : Hess0 Num) (st0 : St Num n) (a0 : IterApprox Num n) (hg : st0.happ = some (.iter a0)) (hsch : a0.scheme = .broyden (fin 0) true)
    (h0 : hess0 = .val .none ∧ 1 ≤ m0 ∨ ∃ B : Fin n → Fin n → ℝ, hess0 = .val (.ofMat (ofM B)) ∧ Sym B ∧ PD B ∧ ∀ v, rdot v (rmv B v) ≤ m0 * rdot v v)
    (k : ℕ) (st : St Num n) (cur : Funout Num n) (h : LoopHead E (ofV x0) startId hess0 st0 k st cur) :
    ∃ B, st.hess = ofM B ∧ Sym B ∧ PD B ∧ ∀ v, rdot v (rmv B v) ≤ (m0 + L * k) * rdot v v :=
  bfgs_growth hU hev hL0 hL hc x0 startId hess0 st0 a0 hg hsch h0 k st cur h

/-- **C89, any approximation that grows at most linearly.** Steihaug solver, no bounds, exact arithmetic: if the objective has an `L`-Lipschitz gradient and is bounded below, and the model
Hessian used in iteration `j` is symmetric and bounded by `m0 + b * j`, then within `growthBound` iterations the run visits a point whose gradient is shorter than `eps`. -/
theorem C89_growing (hE : TRParams E mu eta g1 g2 D0) (hU : NoBounds E.lb E.ub) (hT : UsesTrustRegion E) (hdim : E.opts.subspaceDim = .steihaug) (hev : Evaluates E f g)
    (L m0 b fmin : ℝ) (hL0 : 0 ≤ L) (hm : 0 < m0) (hb : 0 < b) (hL : SmoothWith L f g) (hmin : ∀ y, fmin ≤ f y) (x0 : Fin n → ℝ) (startId : String) (hess0 : Hess0 Num) (st0 : St Num n)
    (hB : ∀ j st cur, LoopHead E (ofV x0) startId hess0 st0 j st cur → BoundedSym (m0 + b * j) st.hess) (eps : ℝ) (he : 0 < eps)
    (k : ℕ) (st : St Num n) (cur : Funout Num n) (h : LoopHead E (ofV x0) startId hess0 st0 k st cur) (hk : growthBound mu g1 g2 D0 L m0 b (f x0 - fmin) eps ≤ k) :
    ∃ j < growthBound mu g1 g2 D0 L m0 b (f x0 - fmin) eps, ∃ st' cur' x', LoopHead E (ofV x0) startId hess0 st0 j st' cur' ∧
      st'.x = ofV x' ∧ rnorm (g x') < eps := by
  obtain ⟨stN, curN, hhN⟩ := loopHead_prefix E _ startId hess0 st0 k st cur h _ hk
  by_contra hcon
  push Not at hcon
  obtain ⟨x, D, hgr⟩ := run_grown hE hU hT hdim hev L m0 b fmin hL0 hm hb.le hL x0 startId hess0 st0 hB eps he _ stN curN hhN
    (fun j hj st' cur' x' hh hx => hcon j hj st' cur' x' hh hx)
  have hla : 0 < Real.log (1 / g1) := Real.log_pos (by rw [lt_div_iff₀ hE.g1_pos, one_mul]; exact hE.g1_lt)
  have hl2 : 0 ≤ Real.log g2 := Real.log_nonneg hE.g2_ge
  have hkp := growthFloor_pos hE hL0 hm he
  have := grown_bound hm hb hkp hla (div_nonneg (by linarith) (by have := hE.mu_pos; positivity)) hmin hgr
  exact lt_irrefl _ this

/-- the approximations of a BFGS run on a convex function -/
theorem bfgs_bounded (hU : NoBounds E.lb E.ub) (hev : Evaluates E f g) {L m0 : ℝ} (hL0 : 0 < L) (hL : SmoothWith L f g) (hc : AboveTangents f g) (x0 : Fin n → ℝ) (startId : String)
    (hess0 : Hess0 Num) (st0 : St Num n) (a0 : IterApprox Num n) (hg : st0.happ = some (.iter a0)) (hsch : a0.scheme = .broyden (fin 0) true)
    (h0 : hess0 = .val .none ∧ 1 ≤ m0 ∨ ∃ B : Fin n → Fin n → ℝ, hess0 = .val (.ofMat (ofM B)) ∧ Sym B ∧ PD B ∧ ∀ v, rdot v (rmv B v) ≤ m0 * rdot v v)
    (j : ℕ) (st : St Num n) (cur : Funout Num n) (h : LoopHead E (ofV x0) startId hess0 st0 j st cur) : BoundedSym (m0 + L * j) st.hess := by
  obtain ⟨B, h1, h2, h3, h4⟩ := bfgs_growth hU hev hL0 hL hc x0 startId hess0 st0 a0 hg hsch h0 j st cur h
  refine ⟨B, h1, h2, fun v => ?_⟩
  rw [abs_of_nonneg]
  · exact h4 v
  · rcases eq_or_ne v 0 with rfl | hv
    · rw [zero_rdot]
    · exact (h3 v hv).le

/-- **C89.** Let the objective be convex and bounded below by `fmin`, with `L`-Lipschitz gradient; nothing is assumed about second derivatives, and there need not be a minimizer.  Then an
optimization with BFGS, Steihaug solver and no bounds comes, within `growthBound` iterations from whatever starting point, to a point `x'` with a gradient shorter than `eps`, whose value
exceeds the value at any other point `y` by no more than `eps` times the distance of `y`. -/
theorem C89_bfgs (hE : TRParams E mu eta g1 g2 D0) (hU : NoBounds E.lb E.ub) (hT : UsesTrustRegion E) (hdim : E.opts.subspaceDim = .steihaug) (hev : Evaluates E f g)
    (L m0 fmin : ℝ) (hL0 : 0 < L) (hm : 0 < m0) (hL : SmoothWith L f g) (hc : AboveTangents f g) (hmin : ∀ y, fmin ≤ f y) (x0 : Fin n → ℝ) (startId : String)
    (hess0 : Hess0 Num) (st0 : St Num n) (a0 : IterApprox Num n) (hg : st0.happ = some (.iter a0)) (hsch : a0.scheme = .broyden (fin 0) true)
    (h0 : hess0 = .val .none ∧ 1 ≤ m0 ∨ ∃ B : Fin n → Fin n → ℝ, hess0 = .val (.ofMat (ofM B)) ∧ Sym B ∧ PD B ∧ ∀ v, rdot v (rmv B v) ≤ m0 * rdot v v)
    (eps : ℝ) (he : 0 < eps) (k : ℕ) (st : St Num n) (cur : Funout Num n) (h : LoopHead E (ofV x0) startId hess0 st0 k st cur)
    (hk : growthBound mu g1 g2 D0 L m0 L (f x0 - fmin) eps ≤ k) :
    ∃ j < growthBound mu g1 g2 D0 L m0 L (f x0 - fmin) eps, ∃ st' cur' x', LoopHead E (ofV x0) startId hess0 st0 j st' cur' ∧
      st'.x = ofV x' ∧ st'.fval = fin (f x') ∧ rnorm (g x') < eps ∧ ∀ y, f x' ≤ f y + eps * rnorm (x' - y) := by
  obtain ⟨j, hj, st', cur', x', hh, hx, hsmall⟩ := C89_growing hE hU hT hdim hev L m0 L fmin hL0.le hm hL0 hL hmin x0 startId hess0 st0
    (bfgs_bounded hU hev hL0 hL hc x0 startId hess0 st0 a0 hg hsch h0) eps he k st cur h hk
  refine ⟨j, hj, st', cur', x', hh, hx, (head_values hU hev _ startId hess0 st0 j st' cur' hh x' hx).2.1, hsmall, near_minimal hc hsmall.le⟩

/-- **C89, iterations.** With a positive gradient tolerance `gatol`, and a starting point that does not already satisfy it, such an optimization makes fewer than `growthBound`
iterations, whatever the iteration limit. -/
theorem C89_stops (hE : TRParams E mu eta g1 g2 D0) (hU : NoBounds E.lb E.ub) (hT : UsesTrustRegion E) (hdim : E.opts.subspaceDim = .steihaug) (hev : Evaluates E f g)
    (L m0 fmin : ℝ) (hL0 : 0 < L) (hm : 0 < m0) (hL : SmoothWith L f g) (hc : AboveTangents f g) (hmin : ∀ y, fmin ≤ f y) (x0 : Fin n → ℝ) (startId : String)
    (hess0 : Hess0 Num) (st0 : St Num n) (a0 : IterApprox Num n) (hg : st0.happ = some (.iter a0)) (hsch : a0.scheme = .broyden (fin 0) true)
    (h0 : hess0 = .val .none ∧ 1 ≤ m0 ∨ ∃ B : Fin n → Fin n → ℝ, hess0 = .val (.ofMat (ofM B)) ∧ Sym B ∧ PD B ∧ ∀ v, rdot v (rmv B v) ≤ m0 * rdot v v)
    (ga : ℝ) (hga : E.opts.gatol = fin ga) (hga0 : 0 < ga) (hstart : ga < rnorm (g x0))
    (k : ℕ) (st : St Num n) (cur : Funout Num n) (h : LoopHead E (ofV x0) startId hess0 st0 k st cur) : k < growthBound mu g1 g2 D0 L m0 L (f x0 - fmin) ga := by
  by_contra hcon
  push Not at hcon
  obtain ⟨j, hj, st', cur', x', hh, hx, hsmall⟩ := C89_growing hE hU hT hdim hev L m0 L fmin hL0.le hm hL0 hL hmin x0 startId hess0 st0
    (bfgs_bounded hU hev hL0 hL hc x0 startId hess0 st0 a0 hg hsch h0) ga hga0 k st cur h hcon
  -- the run goes on after `j`
  obtain ⟨st1, cur1, h1⟩ := loopHead_prefix E _ startId hess0 st0 k st cur h (j + 1) (by omega)
  obtain ⟨prev, cur0, step, new, hh2, hp⟩ := loopHead_pass E _ startId hess0 st0 j st1 cur1 h1
  obtain ⟨rfl, rfl⟩ := loopHead_unique E _ startId hess0 st0 j _ _ _ _ hh hh2
  have hgr := (head_values hU hev _ startId hess0 st0 j st' cur' hh x' hx).2.2
  have := head_gradient (ofV x0) startId hess0 st0 ga hga (fun s c gr hs hg => by
    have h2 := (start_values hU hev x0 startId hess0 st0 s c hs).2.2
    rw [hg, ofV_inj] at h2
    rw [h2]; exact hstart) j st' cur' hh (continues_live E _ _ hp.continues) (g x') hgr
  linarith

/-- what is known at every loop head of such a run -/
theorem bfgs_live (hE : TRParams E mu eta g1 g2 D0) (hU : NoBounds E.lb E.ub) (hT : UsesTrustRegion E) (hdim : E.opts.subspaceDim = .steihaug) (hev : Evaluates E f g)
    (L m0 fmin : ℝ) (hL0 : 0 < L) (hm : 0 < m0) (hL : SmoothWith L f g) (hc : AboveTangents f g) (hmin : ∀ y, fmin ≤ f y) (x0 : Fin n → ℝ) (startId : String)
    (hess0 : Hess0 Num) (st0 : St Num n) (a0 : IterApprox Num n) (hg : st0.happ = some (.iter a0)) (hsch : a0.scheme = .broyden (fin 0) true)
    (h0 : hess0 = .val .none ∧ 1 ≤ m0 ∨ ∃ B : Fin n → Fin n → ℝ, hess0 = .val (.ofMat (ofM B)) ∧ Sym B ∧ PD B ∧ ∀ v, rdot v (rmv B v) ≤ m0 * rdot v v)
    (ga : ℝ) (hga : E.opts.gatol = fin ga) (hga0 : 0 < ga) (hstart : ga < rnorm (g x0))
    (k : ℕ) (st : St Num n) (cur : Funout Num n) (h : LoopHead E (ofV x0) startId hess0 st0 k st cur) :
    ∃ x D, st.x = ofV x ∧ cur.x = ofV x ∧ st.fval = fin (f x) ∧ st.grad = ofV (g x) ∧ st.delta = fin D ∧
      growthFloor mu g1 D0 L m0 ga / (m0 + L * growthBound mu g1 g2 D0 L m0 L (f x0 - fmin) ga) ≤ D ∧ 0 < D := by
  have hbd := bfgs_bounded hU hev hL0 hL hc x0 startId hess0 st0 a0 hg hsch h0
  have hk := C89_stops hE hU hT hdim hev L m0 fmin hL0 hm hL hc hmin x0 startId hess0 st0 a0 hg hsch h0 ga hga hga0 hstart k st cur h
  obtain ⟨x, D, hgr⟩ := run_grown hE hU hT hdim hev L m0 L fmin hL0.le hm hL0.le hL x0 startId hess0 st0 hbd ga hga0 k st cur h (fun j hj st' cur' x' hh hx => by
    obtain ⟨st1, cur1, h1⟩ := loopHead_prefix E _ startId hess0 st0 k st cur h (j + 1) (by omega)
    obtain ⟨prev, cur0, step, new, hh2, hp⟩ := loopHead_pass E _ startId hess0 st0 j st1 cur1 h1
    obtain ⟨rfl, rfl⟩ := loopHead_unique E _ startId hess0 st0 j _ _ _ _ hh hh2
    have hgr := (head_values hU hev _ startId hess0 st0 j st' cur' hh x' hx).2.2
    exact (head_gradient (ofV x0) startId hess0 st0 ga hga (fun s c gr hs hg => by
      have h2 := (start_values hU hev x0 startId hess0 st0 s c hs).2.2
      rw [hg, ofV_inj] at h2
      rw [h2]; exact hstart) j st' cur' hh (continues_live E _ _ hp.continues) (g x') hgr).le)
  have hkp := growthFloor_pos hE hL0.le hm hga0
  have hM : 0 < m0 + L * (k : ℝ) := by positivity
  have hlow : growthFloor mu g1 D0 L m0 ga / (m0 + L * k) ≤ D := by rw [div_le_iff₀ hM]; exact hgr.lower
  refine ⟨x, D, hgr.hx, (head_values hU hev _ startId hess0 st0 k st cur h x hgr.hx).1, hgr.fval, hgr.grad, hgr.delta, le_trans ?_ hlow, lt_of_lt_of_le (by positivity) hlow⟩
  refine div_le_div_of_nonneg_left hkp.le hM ?_
  have : (k : ℝ) ≤ growthBound mu g1 g2 D0 L m0 L (f x0 - fmin) ga := by exact_mod_cast hk.le
  nlinarith

/-- **C89, total correctness.** An objective that returns values and gradients (`CleanGradients`), validated options and a positive gradient tolerance: `minimize` returns normally, after
fewer than `growthBound` iterations (`loops`, the fuel of the model, only has to allow for the iteration limit). -/
theorem C89_returns (hn : 0 < n) (hE : TRParams E mu eta g1 g2 D0) (hU : NoBounds E.lb E.ub) (O : ℕ → Oracles Num)
    (hO : ∀ k I, E.tr k I = trustRegion (O k) n E.opts.subspaceDim E.opts.stepbackStrat I) (hdim : E.opts.subspaceDim = .steihaug)
    (hC : CleanGradients E) (hR : ReturnsGrad E f g)
    (L m0 fmin : ℝ) (hL0 : 0 < L) (hm : 0 < m0) (hL : SmoothWith L f g) (hc : AboveTangents f g) (hmin : ∀ y, fmin ≤ f y) (x0 : Fin n → ℝ) (startId : String)
    (hess0 : Hess0 Num) (st0 : St Num n) (a0 : IterApprox Num n) (hg : st0.happ = some (.iter a0)) (hsch : a0.scheme = .broyden (fin 0) true)
    (h0 : hess0 = .val .none ∧ 1 ≤ m0 ∨ ∃ B : Fin n → Fin n → ℝ, hess0 = .val (.ofMat (ofM B)) ∧ Sym B ∧ PD B ∧ ∀ v, rdot v (rmv B v) ≤ m0 * rdot v v)
    (hevs : ∀ m, ∃ r, E.evs m = .ok r) (hcond : ∀ m, ∃ r, E.cond m = .ok r) (hfile : E.opts.history = true → ∀ grp ∈ st0.file, grp.1 ≠ startId)
    (ga : ℝ) (hga : E.opts.gatol = fin ga) (hga0 : 0 < ga) (hstart : ga < rnorm (g x0)) (loops : ℕ) (hloops : E.opts.maxiter ≤ loops) :
    ∃ st', minimize E loops (ofV x0) startId hess0 st0 = .ok st' ∧ st'.iteration < growthBound mu g1 g2 D0 L m0 L (f x0 - fmin) ga := by
  have h0' : hess0 = .val .none ∨ ∃ m : Mat Num n n, hess0 = .val (.ofMat m) ∧ FinSPD m := by
    rcases h0 with ⟨h, _⟩ | ⟨B, h, hS, hp, _⟩
    · exact Or.inl h
    · exact Or.inr ⟨_, h, B, rfl, hS, hp⟩
  obtain ⟨st', hmz⟩ := C68_broyden (st0 := st0) (startId := startId) hn hC a0 hg (.iter a0 0 le_rfl hsch) h0' ⟨⟨_, hE.gamma1⟩, ⟨_, hE.gamma2⟩, ⟨_, hE.deltaInit⟩, hE.theta⟩ O hO
    (by rw [hdim]; exact fun h => SubSpaceDim.noConfusion h) (fun h => absurd hdim h) hevs hcond x0 (hU.inBox x0) (fun z _ _ => ⟨f z, _, hR.obj _ z⟩) hfile loops hloops
  refine ⟨st', hmz, ?_⟩
  obtain ⟨_, k, st1, cur, st2, _, hh, hcont, hw⟩ := minimize_ok E (ofV x0) startId hess0 st0 loops st' hmz
  obtain ⟨fl, rfl⟩ := writeHistory_ok E _ _ hw
  have hit := (headInv E _ startId hess0 st0 k st1 cur hh).iteration
  have : st2.iteration = st1.iteration := by
    rcases checkContinue_false E st1 st2 hcont with ⟨_, rfl⟩ | ⟨_, _, rfl⟩ | ⟨_, _, _, rfl⟩ | ⟨_, _, _, rfl⟩ <;> rfl
  show st2.iteration < _
  rw [this, hit]
  exact C89_stops hE hU ⟨O, n, hO⟩ hdim hR.evaluates L m0 fmin hL0 hm hL hc hmin x0 startId hess0 st0 a0 hg hsch h0 ga hga hga0 hstart k st1 cur hh

/-- **C89, reason for stopping.** If moreover there is no time limit, the iteration limit is not below `growthBound`, and the least possible radius is not below the machine precision, then
the run stops with one of the three convergence flags. -/
theorem C89_flag (hn : 0 < n) (hE : TRParams E mu eta g1 g2 D0) (hU : NoBounds E.lb E.ub) (O : ℕ → Oracles Num)
    (hO : ∀ k I, E.tr k I = trustRegion (O k) n E.opts.subspaceDim E.opts.stepbackStrat I) (hdim : E.opts.subspaceDim = .steihaug)
    (hC : CleanGradients E) (hR : ReturnsGrad E f g)
    (L m0 fmin : ℝ) (hL0 : 0 < L) (hm : 0 < m0) (hL : SmoothWith L f g) (hc : AboveTangents f g) (hmin : ∀ y, fmin ≤ f y) (x0 : Fin n → ℝ) (startId : String)
    (hess0 : Hess0 Num) (st0 : St Num n) (a0 : IterApprox Num n) (hg : st0.happ = some (.iter a0)) (hsch : a0.scheme = .broyden (fin 0) true)
    (h0 : hess0 = .val .none ∧ 1 ≤ m0 ∨ ∃ B : Fin n → Fin n → ℝ, hess0 = .val (.ofMat (ofM B)) ∧ Sym B ∧ PD B ∧ ∀ v, rdot v (rmv B v) ≤ m0 * rdot v v)
    (hevs : ∀ m, ∃ r, E.evs m = .ok r) (hcond : ∀ m, ∃ r, E.cond m = .ok r) (hfile : E.opts.history = true → ∀ grp ∈ st0.file, grp.1 ≠ startId)
    (ga : ℝ) (hga : E.opts.gatol = fin ga) (hga0 : 0 < ga) (hstart : ga < rnorm (g x0)) (loops : ℕ) (hloops : E.opts.maxiter ≤ loops)
    (hiter : (growthBound mu g1 g2 D0 L m0 L (f x0 - fmin) ga : ℤ) ≤ E.opts.maxiter) (htime : E.opts.maxtime = pinf) (hclock : ∀ k, ∃ t : ℝ, E.clock k = fin t)
    (hfloor : 1 / 4503599627370496 ≤ growthFloor mu g1 D0 L m0 ga / (m0 + L * growthBound mu g1 g2 D0 L m0 L (f x0 - fmin) ga)) :
    ∃ st', minimize E loops (ofV x0) startId hess0 st0 = .ok st' ∧
      (st'.exitflag = .ftol ∨ st'.exitflag = .xtol ∨ st'.exitflag = .gtol) ∧
      -- the last call of the objective, at `y`, after a step `y - x` from the point `x`; the flags refer to these
      ∃ x y fo, st'.evals.head? = some { arg := ofV y, out := .ok fo } ∧
        (st'.exitflag = .gtol → rnorm (g y) ≤ ga ∨ le (fin (rnorm (g y))) (E.opts.grtol * fin |f x|) = true) ∧
        (st'.exitflag = .ftol → lt (fin |f y - f x|) (E.opts.fatol + E.opts.frtol * fin |f x|) = true) ∧
        (st'.exitflag = .xtol → lt (fin (rnorm (y - x))) E.opts.xtol = true) := by
  obtain ⟨st', hmz, _⟩ := C89_returns hn hE hU O hO hdim hC hR L m0 fmin hL0 hm hL hc hmin x0 startId hess0 st0 a0 hg hsch h0 hevs hcond hfile ga hga hga0 hstart loops hloops
  have hT : UsesTrustRegion E := ⟨O, n, hO⟩
  have hbd := bfgs_bounded hU hR.evaluates hL0 hL hc x0 startId hess0 st0 a0 hg hsch h0
  refine flag_given hU hR.evaluates x0 startId hess0 st0 _ ga hga hstart _
    (C89_stops hE hU hT hdim hR.evaluates L m0 fmin hL0 hm hL hc hmin x0 startId hess0 st0 a0 hg hsch h0 ga hga hga0 hstart)
    (bfgs_live hE hU hT hdim hR.evaluates L m0 fmin hL0 hm hL hc hmin x0 startId hess0 st0 a0 hg hsch h0 ga hga hga0 hstart) ?_ loops ⟨st', hmz⟩ hiter htime hclock hfloor
  intro k prev cur step new next cur' hh hp x D hx hgx hd hD hgr
  obtain ⟨B, p, _, _, hss, htrial, _⟩ := steihaug_decrease (g := g) hE hU hT hdim (M := m0 + L * k) (by positivity) hga0 hp (fun _ _ => hbd k prev cur hh) x D hx hgx hd hD hgr.le
  exact ⟨p, hss, htrial⟩

/-- **C89, near minimality.** With the function and step tolerances and the relative gradient tolerance switched off, the flag is `gtol`, and the value at the point `y` evaluated last
exceeds the value at any other point `z` by no more than `gatol` times the distance. -/
theorem C89_gtol (hn : 0 < n) (hE : TRParams E mu eta g1 g2 D0) (hU : NoBounds E.lb E.ub) (O : ℕ → Oracles Num)
    (hO : ∀ k I, E.tr k I = trustRegion (O k) n E.opts.subspaceDim E.opts.stepbackStrat I) (hdim : E.opts.subspaceDim = .steihaug)
    (hC : CleanGradients E) (hR : ReturnsGrad E f g)
    (L m0 fmin : ℝ) (hL0 : 0 < L) (hm : 0 < m0) (hL : SmoothWith L f g) (hc : AboveTangents f g) (hmin : ∀ y, fmin ≤ f y) (x0 : Fin n → ℝ) (startId : String)
    (hess0 : Hess0 Num) (st0 : St Num n) (a0 : IterApprox Num n) (hg : st0.happ = some (.iter a0)) (hsch : a0.scheme = .broyden (fin 0) true)
    (h0 : hess0 = .val .none ∧ 1 ≤ m0 ∨ ∃ B : Fin n → Fin n → ℝ, hess0 = .val (.ofMat (ofM B)) ∧ Sym B ∧ PD B ∧ ∀ v, rdot v (rmv B v) ≤ m0 * rdot v v)
    (hevs : ∀ m, ∃ r, E.evs m = .ok r) (hcond : ∀ m, ∃ r, E.cond m = .ok r) (hfile : E.opts.history = true → ∀ grp ∈ st0.file, grp.1 ≠ startId)
    (ga : ℝ) (hga : E.opts.gatol = fin ga) (hga0 : 0 < ga) (hstart : ga < rnorm (g x0)) (loops : ℕ) (hloops : E.opts.maxiter ≤ loops)
    (hiter : (growthBound mu g1 g2 D0 L m0 L (f x0 - fmin) ga : ℤ) ≤ E.opts.maxiter) (htime : E.opts.maxtime = pinf) (hclock : ∀ k, ∃ t : ℝ, E.clock k = fin t)
    (hfloor : 1 / 4503599627370496 ≤ growthFloor mu g1 D0 L m0 ga / (m0 + L * growthBound mu g1 g2 D0 L m0 L (f x0 - fmin) ga))
    (hfa : E.opts.fatol = fin 0) (hfr : E.opts.frtol = fin 0) (hxt : E.opts.xtol = fin 0) (hgr : E.opts.grtol = fin 0) :
    ∃ st', minimize E loops (ofV x0) startId hess0 st0 = .ok st' ∧ st'.exitflag = .gtol ∧
      ∃ y fo, st'.evals.head? = some { arg := ofV y, out := .ok fo } ∧ rnorm (g y) ≤ ga ∧ ∀ z, f y ≤ f z + ga * rnorm (y - z) := by
  obtain ⟨st', h1, h2, x, y, fo, h3, h4, h5, h6⟩ := C89_flag hn hE hU O hO hdim hC hR L m0 fmin hL0 hm hL hc hmin x0 startId hess0 st0 a0 hg hsch h0 hevs hcond hfile ga hga hga0 hstart
    loops hloops hiter htime hclock hfloor
  refine ⟨st', h1, ?_⟩
  have hflag : st'.exitflag = .gtol := by
    rcases h2 with h2 | h2 | h2
    · exfalso
      have h := h5 h2
      rw [hfa, hfr] at h
      simp at h
      linarith [abs_nonneg (f y - f x)]
    · exfalso
      have h := h6 h2
      rw [hxt] at h
      simp at h
      linarith [rnorm_nonneg (y - x)]
    · exact h2
  have hsmall : rnorm (g y) ≤ ga := by
    rcases h4 hflag with h | h
    · exact h
    · rw [hgr] at h
      simp at h
      linarith
  exact ⟨hflag, y, fo, h3, hsmall, near_minimal hc hsmall⟩

/-! ## A convex function without minimizer -/

noncomputable section

/-- `log (1 + exp x)` -/
def softF (x : Fin 1 → ℝ) : ℝ := Real.log (1 + Real.exp (x 0))
/-- its gradient -/
def softG (x : Fin 1 → ℝ) : Fin 1 → ℝ := fun _ => Real.sigmoid (x 0)

theorem soft_smooth : SmoothWith 1 softF softG where
  deriv x s := by
    have h0 : HasDerivAt (fun t : ℝ => x 0 + t * s 0) (s 0) 0 := by
      simpa using ((hasDerivAt_id (0 : ℝ)).mul_const (s 0)).const_add (x 0)
    have h1 := (h0.exp.const_add 1).log (by positivity)
    have e : (fun t : ℝ => softF (x + t • s)) = fun t : ℝ => Real.log (1 + Real.exp (x 0 + t * s 0)) := by
      funext t; simp [softF]
    have hr : rdot (softG x) s = Real.exp (x 0 + 0 * s 0) * s 0 / (1 + Real.exp (x 0 + 0 * s 0)) := by
      simp only [rdot, Fin.sum_univ_one, softG, Real.sigmoid_def, Real.exp_neg, zero_mul, add_zero]
      field_simp
      ring
    rw [e, hr]
    exact h1
  lipschitz x y := by
    have h : ‖Real.sigmoid (y 0) - Real.sigmoid (x 0)‖ ≤ 1 * ‖y 0 - x 0‖ := by
      refine Convex.norm_image_sub_le_of_norm_hasDerivWithin_le (s := Set.univ) (fun t _ => (Real.hasDerivAt_sigmoid t).hasDerivWithinAt) (fun t _ => ?_) convex_univ (Set.mem_univ _) (Set.mem_univ _)
      have h1 := Real.sigmoid_pos t
      have h2 := Real.sigmoid_lt_one t
      rw [Real.norm_eq_abs, abs_of_nonneg (mul_nonneg h1.le (by linarith))]
      nlinarith
    have e : ∀ v : Fin 1 → ℝ, rnorm v = |v 0| := fun v => by rw [rnorm]; simp [rdot, Real.sqrt_mul_self_eq_abs]
    rw [e, e]
    exact h

theorem soft_convex : AboveTangents softF softG := by
  intro x y
  have h1 := Real.sigmoid_pos (x 0)
  have h2 := Real.sigmoid_lt_one (x 0)
  have h3 := convexOn_exp.2 (Set.mem_univ 0) (Set.mem_univ (y 0 - x 0)) (by linarith : 0 ≤ 1 - Real.sigmoid (x 0)) h1.le (by ring)
  simp only [smul_eq_mul, mul_zero, zero_add, Real.exp_zero, mul_one] at h3
  have e : 1 - Real.sigmoid (x 0) + Real.sigmoid (x 0) * Real.exp (y 0 - x 0) = (1 + Real.exp (y 0)) / (1 + Real.exp (x 0)) := by
    rw [Real.sigmoid_def, Real.exp_neg, Real.exp_sub]
    field_simp
    ring
  rw [e] at h3
  have h4 := (Real.le_log_iff_exp_le (by positivity)).mpr h3
  rw [Real.log_div (by positivity) (by positivity)] at h4
  simp only [softF, softG, rdot, Fin.sum_univ_one, Pi.sub_apply]
  linarith

/-- an objective with this function and gradient, `nan` at `nan` -/
def softObj (v : Vec Num 1) : Ret Num :=
  match v 0 with
  | fin r => .tuple [.scalar (fin (Real.log (1 + Real.exp r))), .ofVec (ofV fun _ : Fin 1 => Real.sigmoid r)]
  | _ => .tuple [.scalar nan, .ofVec fun _ : Fin 1 => nan]

/-- default options, except for the Steihaug solver -/
def softEnv : Env Num 1 :=
  { plainEnv 1 softObj (fun _ => exactRoutines) with
    nargout := 2
    opts := { (resolveOpts [] : Opts Num) with subspaceDim := .steihaug }
    tr := fun _ I => trustRegion exactRoutines 1 .steihaug .reflect I }

/-- the assumptions of `C89_returns` hold for the convex function `log (1 + exp x)`, which has no minimizer, with `BFGS()` and the default options: from every starting point with a
derivative above the gradient tolerance the run ends regularly, long before the number of iterations given by the theorem -/
example (x0 : Fin 1 → ℝ) (h0 : 1 / 1000000 < Real.sigmoid (x0 0)) :
    nargoutOf (some (.iter (IterApprox.new .bfgs)) : Option (Happ Num 1)) = softEnv.nargout ∧
    ∃ st', minimize softEnv 1000 (ofV x0) "0" (.val .none) (St.new softEnv.opts (some (.iter (IterApprox.new .bfgs)))) = .ok st' ∧
      st'.iteration < growthBound (1 / 4) (1 / 4) 2 1 1 1 1 (softF x0 - 0) (1 / 1000000) := by
  have hE : TRParams softEnv (1 / 4) (3 / 4) (1 / 4) 2 1 := by
    constructor <;> try (simp only [softEnv, demo_opts])
    all_goals norm_num
  have hR : ReturnsGrad softEnv softF softG := ⟨rfl, rfl, fun k x => rfl⟩
  have hC : CleanGradients softEnv := by
    refine ⟨rfl, rfl, fun k v hv => ?_⟩
    rcases hv 0 with h | ⟨r, h, -⟩
    · refine ⟨nan, fun _ => nan, ?_, fun h => by cases h⟩
      show softObj v = _
      simp [softObj, h]
    · refine ⟨fin (Real.log (1 + Real.exp r)), _, ?_, fun _ => ⟨fun i => ?_, ⟨fun _ => Real.sigmoid r, rfl⟩⟩⟩
      · show softObj v = _
        simp [softObj, h]
      · obtain rfl : i = 0 := Subsingleton.elim _ _
        rw [h]; exact fun h => Num.noConfusion h
  refine ⟨rfl, C89_returns (by norm_num) hE (fun _ => ⟨rfl, rfl⟩) (fun _ => exactRoutines) (fun _ _ => rfl) rfl hC hR 1 1 0 one_pos one_pos soft_smooth soft_convex
    (fun y => Real.log_nonneg (by have := Real.exp_pos (y 0); linarith)) x0 "0" (.val .none) _ _ rfl (by simp [IterApprox.new, IterScheme.bfgs]) (Or.inl ⟨rfl, le_rfl⟩)
    (fun _ => ⟨_, rfl⟩) (fun _ => ⟨_, rfl⟩) (fun _ g hg => by cases hg) (1 / 1000000) (by simp only [softEnv, demo_opts]) (by norm_num) ?_ 1000 ?_⟩
  · have e : rnorm (softG x0) = Real.sigmoid (x0 0) := by
      rw [rnorm]; simp [rdot, softG, Real.sqrt_mul_self_eq_abs, abs_of_pos (Real.sigmoid_pos _)]
    rw [e]; exact h0
  · simp only [softEnv, demo_opts]; norm_num

end

end Fides
