import Verif.Lemmas.Definite
import Verif.Props.Bfgs
import Verif.Props.NewtonExamples

/-!
# C90: the default solver on strictly convex problems without a lower bound of the curvature
-/

namespace Fides
open Num Spec
variable {n : ℕ} {E : Env Num n} {f : (Fin n → ℝ) → ℝ} {g : (Fin n → ℝ) → Fin n → ℝ} {mu eta g1 g2 D0 : ℝ}

/-- **C90.** Unbounded problems, default (two-dimensional) or full-space solver, exact arithmetic and exact linear algebra: let the objective have a Lipschitz continuous gradient
(constant `L`) and be bounded below, and let the model Hessians used by the run be symmetric, positive definite and bounded by `M` - from the user or from any approximation, and
arbitrarily close to singular.  Then for every `eps` not below `2⁻⁴⁹` and `M` times twice the solver's tolerance, the run visits within `definiteBound` iterations a point whose gradient is
shorter than `eps`. -/
theorem C90_visits (hE : TRParams E mu eta g1 g2 D0) (hU : NoBounds E.lb E.ub) (O : ℕ → Oracles Num) (hX : ∀ k, ExactRoutines (O k)) (fuel : ℕ)
    (hO : ∀ k I, E.tr k I = trustRegion (O k) fuel E.opts.subspaceDim E.opts.stepbackStrat I)
    (hdim : E.opts.subspaceDim = .two ∨ E.opts.subspaceDim = .full) (hev : Evaluates E f g)
    (L M fmin : ℝ) (hL0 : 0 < L) (hM0 : 0 < M) (hL : SmoothWith L f g)
    (hmin : ∀ y, fmin ≤ f y) (x0 : Fin n → ℝ) (startId : String) (hess0 : Hess0 Num) (st0 : St Num n)
    (hB : ∀ j st cur x, LoopHead E (ofV x0) startId hess0 st0 j st cur → st.x = ofV x → PDBoundedSym M st.hess)
    (eps : ℝ) (he : 1 / 562949953421312 ≤ eps) (hprec : 1 / 33554432 ≤ eps / M) (k : ℕ) (st : St Num n) (cur : Funout Num n) (h : LoopHead E (ofV x0) startId hess0 st0 k st cur)
    (hk : definiteBound mu g1 g2 D0 L M (f x0 - fmin) eps ≤ k) :
    ∃ j < definiteBound mu g1 g2 D0 L M (f x0 - fmin) eps, ∃ st' cur' x', LoopHead E (ofV x0) startId hess0 st0 j st' cur' ∧
      st'.x = ofV x' ∧ rnorm (g x') < eps :=
  visits_of hE hU hev hL fmin (definiteConst L M eps hL0 hM0 (lt_of_lt_of_le (by norm_num) he)) hmin x0 startId hess0 st0 eps
    (fun j prev cur step new next cur' hh hp => definite_modelDecrease hE hU O hX fuel hO hdim hM0 he hprec hp (fun x => hB j prev cur x hh)) k st cur h _
    (definiteBound_eq _ _ _ _) hk

/-- **C90, iterations.** With a gradient tolerance `gatol` not below `M` times the solver's tolerance, and a starting point that does not already
satisfy it, a run under the assumptions of `C90_visits` makes fewer than `definiteBound` iterations, whatever the iteration limit. -/
theorem C90_stops (hE : TRParams E mu eta g1 g2 D0) (hU : NoBounds E.lb E.ub) (O : ℕ → Oracles Num) (hX : ∀ k, ExactRoutines (O k)) (fuel : ℕ)
    (hO : ∀ k I, E.tr k I = trustRegion (O k) fuel E.opts.subspaceDim E.opts.stepbackStrat I)
    (hdim : E.opts.subspaceDim = .two ∨ E.opts.subspaceDim = .full) (hev : Evaluates E f g)
    (L M fmin : ℝ) (hL0 : 0 < L) (hM0 : 0 < M) (hL : SmoothWith L f g)
    (hmin : ∀ y, fmin ≤ f y) (x0 : Fin n → ℝ) (startId : String) (hess0 : Hess0 Num) (st0 : St Num n)
    (hB : ∀ j st cur x, LoopHead E (ofV x0) startId hess0 st0 j st cur → st.x = ofV x → PDBoundedSym M st.hess)
    (ga : ℝ) (hga : E.opts.gatol = fin ga) (hga0 : 1 / 562949953421312 ≤ ga) (hprec : 1 / 33554432 ≤ ga / M) (hstart : ga < rnorm (g x0))
    (k : ℕ) (st : St Num n) (cur : Funout Num n) (h : LoopHead E (ofV x0) startId hess0 st0 k st cur) :
    k < definiteBound mu g1 g2 D0 L M (f x0 - fmin) ga :=
  stops_of hE hU hev hL fmin (definiteConst L M ga hL0 hM0 (lt_of_lt_of_le (by norm_num) hga0)) hmin x0 startId hess0 st0 ga
    (fun j prev cur step new next cur' hh hp => definite_modelDecrease hE hU O hX fuel hO hdim hM0 hga0 hprec hp (fun x => hB j prev cur x hh)) hga hstart _
    (definiteBound_eq _ _ _ _) k st cur h

/-- **C90, total correctness.** For an objective that returns value, gradient and a positive definite Hessian bounded
by `M` at every real vector: `minimize` returns normally, after fewer than `definiteBound` iterations. -/
theorem C90_total (hn : 0 < n) (hE : TRParams E mu eta g1 g2 D0) (hU : NoBounds E.lb E.ub) (O : ℕ → Oracles Num) (hX : ∀ k, ExactRoutines (O k)) (fuel : ℕ)
    (hO : ∀ k I, E.tr k I = trustRegion (O k) fuel E.opts.subspaceDim E.opts.stepbackStrat I)
    (hdim : E.opts.subspaceDim = .two ∨ E.opts.subspaceDim = .full) (H : (Fin n → ℝ) → Fin n → Fin n → ℝ) (hR : Returns E f g H)
    (L M fmin : ℝ) (hL0 : 0 < L) (hM0 : 0 < M) (hL : SmoothWith L f g)
    (hmin : ∀ y, fmin ≤ f y) (hHM : ∀ x, Sym (H x) ∧ PD (H x) ∧ ∀ v, rdot v (rmv (H x) v) ≤ M * rdot v v)
    (x0 : Fin n → ℝ) (startId : String) (hess0 : Hess0 Num) (st0 : St Num n) (happ : st0.happ = none)
    (hevs : ∀ m, ∃ r, E.evs m = .ok r) (hcond : ∀ m, ∃ r, E.cond m = .ok r) (hfile : ∀ grp ∈ st0.file, grp.1 ≠ startId)
    (ga : ℝ) (hga : E.opts.gatol = fin ga) (hga0 : 1 / 562949953421312 ≤ ga) (hprec : 1 / 33554432 ≤ ga / M) (hstart : ga < rnorm (g x0))
    (loops : ℕ) (hloops : definiteBound mu g1 g2 D0 L M (f x0 - fmin) ga ≤ loops) :
    ∃ st', minimize E loops (ofV x0) startId hess0 st0 = .ok st' ∧ st'.iteration < definiteBound mu g1 g2 D0 L M (f x0 - fmin) ga := by
  have hB : ∀ j st cur x, LoopHead E (ofV x0) startId hess0 st0 j st cur → st.x = ofV x → PDBoundedSym M st.hess := by
    intro j st cur x hh hx
    exact ⟨H x, returned_hess hU hR _ startId hess0 st0 happ j st cur hh x hx, hHM x⟩
  exact total_of hn hE hU H hR hL fmin (definiteConst L M ga hL0 hM0 (lt_of_lt_of_le (by norm_num) hga0)) hmin x0 startId hess0 st0 ga
    (fun j prev cur step new next cur' hh hp => definite_modelDecrease hE hU O hX fuel hO hdim hM0 hga0 hprec hp (fun x => hB j prev cur x hh))
    (definite_proposes hE hU O hX fuel hO hdim H (fun x => ⟨(hHM x).1, (hHM x).2.1⟩) ga (lt_of_lt_of_le (by norm_num) hga0)) hga hstart _ (definiteBound_eq _ _ _ _) happ hevs hcond hfile loops hloops

/-- **C90, reason for stopping.** If moreover the iteration limit is not below the bound, there is no time limit, and the radius floor
is not below the machine precision, then the run stops with one of the three convergence flags. -/
theorem C90_flag (hn : 0 < n) (hE : TRParams E mu eta g1 g2 D0) (hU : NoBounds E.lb E.ub) (O : ℕ → Oracles Num) (hX : ∀ k, ExactRoutines (O k)) (fuel : ℕ)
    (hO : ∀ k I, E.tr k I = trustRegion (O k) fuel E.opts.subspaceDim E.opts.stepbackStrat I)
    (hdim : E.opts.subspaceDim = .two ∨ E.opts.subspaceDim = .full) (H : (Fin n → ℝ) → Fin n → Fin n → ℝ) (hR : Returns E f g H)
    (L M fmin : ℝ) (hL0 : 0 < L) (hM0 : 0 < M) (hL : SmoothWith L f g)
    (hmin : ∀ y, fmin ≤ f y) (hHM : ∀ x, Sym (H x) ∧ PD (H x) ∧ ∀ v, rdot v (rmv (H x) v) ≤ M * rdot v v)
    (x0 : Fin n → ℝ) (startId : String) (hess0 : Hess0 Num) (st0 : St Num n) (happ : st0.happ = none)
    (hevs : ∀ m, ∃ r, E.evs m = .ok r) (hcond : ∀ m, ∃ r, E.cond m = .ok r) (hfile : ∀ grp ∈ st0.file, grp.1 ≠ startId)
    (ga : ℝ) (hga : E.opts.gatol = fin ga) (hga0 : 1 / 562949953421312 ≤ ga) (hprec : 1 / 33554432 ≤ ga / M) (hstart : ga < rnorm (g x0))
    (loops : ℕ) (hloops : definiteBound mu g1 g2 D0 L M (f x0 - fmin) ga ≤ loops)
    (hiter : (definiteBound mu g1 g2 D0 L M (f x0 - fmin) ga : ℤ) ≤ E.opts.maxiter) (htime : E.opts.maxtime = pinf)
    (hclock : ∀ k, ∃ t : ℝ, E.clock k = fin t) (hfloor : 1 / 4503599627370496 ≤ definiteFloor mu g1 D0 L M ga) :
    ∃ st', minimize E loops (ofV x0) startId hess0 st0 = .ok st' ∧
      (st'.exitflag = .ftol ∨ st'.exitflag = .xtol ∨ st'.exitflag = .gtol) ∧
      -- the last call of the objective, at `y`, after a step `y - x` from the point `x`; the flags refer to these
      ∃ x y fo, st'.evals.head? = some { arg := ofV y, out := .ok fo } ∧
        (st'.exitflag = .gtol → rnorm (g y) ≤ ga ∨ le (fin (rnorm (g y))) (E.opts.grtol * fin |f x|) = true) ∧
        (st'.exitflag = .ftol → lt (fin |f y - f x|) (E.opts.fatol + E.opts.frtol * fin |f x|) = true) ∧
        (st'.exitflag = .xtol → lt (fin (rnorm (y - x))) E.opts.xtol = true) := by
  have hB : ∀ j st cur x, LoopHead E (ofV x0) startId hess0 st0 j st cur → st.x = ofV x → PDBoundedSym M st.hess := by
    intro j st cur x hh hx
    exact ⟨H x, returned_hess hU hR _ startId hess0 st0 happ j st cur hh x hx, hHM x⟩
  exact flag_of hn hE hU H hR hL fmin (definiteConst L M ga hL0 hM0 (lt_of_lt_of_le (by norm_num) hga0)) hmin x0 startId hess0 st0 ga
    (fun j prev cur step new next cur' hh hp => definite_modelDecrease hE hU O hX fuel hO hdim hM0 hga0 hprec hp (fun x => hB j prev cur x hh))
    (definite_proposes hE hU O hX fuel hO hdim H (fun x => ⟨(hHM x).1, (hHM x).2.1⟩) ga (lt_of_lt_of_le (by norm_num) hga0)) hga hstart _ (definiteBound_eq _ _ _ _) happ hevs hcond hfile loops hloops
    hiter htime hclock hfloor

/-- **C90, stationarity.** With the function and step tolerances and the relative gradient tolerance switched off, the run stops with
flag `gtol`, the point `y` evaluated last has a gradient not longer than `gatol`, and if the objective lies above its tangents (is convex) its value exceeds the value at any
other point `z` by at most `gatol` times the distance. -/
theorem C90_gtol (hn : 0 < n) (hE : TRParams E mu eta g1 g2 D0) (hU : NoBounds E.lb E.ub) (O : ℕ → Oracles Num) (hX : ∀ k, ExactRoutines (O k)) (fuel : ℕ)
    (hO : ∀ k I, E.tr k I = trustRegion (O k) fuel E.opts.subspaceDim E.opts.stepbackStrat I)
    (hdim : E.opts.subspaceDim = .two ∨ E.opts.subspaceDim = .full) (H : (Fin n → ℝ) → Fin n → Fin n → ℝ) (hR : Returns E f g H)
    (L M fmin : ℝ) (hL0 : 0 < L) (hM0 : 0 < M) (hL : SmoothWith L f g)
    (hmin : ∀ y, fmin ≤ f y) (hHM : ∀ x, Sym (H x) ∧ PD (H x) ∧ ∀ v, rdot v (rmv (H x) v) ≤ M * rdot v v)
    (x0 : Fin n → ℝ) (startId : String) (hess0 : Hess0 Num) (st0 : St Num n) (happ : st0.happ = none)
    (hevs : ∀ m, ∃ r, E.evs m = .ok r) (hcond : ∀ m, ∃ r, E.cond m = .ok r) (hfile : ∀ grp ∈ st0.file, grp.1 ≠ startId)
    (ga : ℝ) (hga : E.opts.gatol = fin ga) (hga0 : 1 / 562949953421312 ≤ ga) (hprec : 1 / 33554432 ≤ ga / M) (hstart : ga < rnorm (g x0))
    (loops : ℕ) (hloops : definiteBound mu g1 g2 D0 L M (f x0 - fmin) ga ≤ loops)
    (hiter : (definiteBound mu g1 g2 D0 L M (f x0 - fmin) ga : ℤ) ≤ E.opts.maxiter) (htime : E.opts.maxtime = pinf)
    (hclock : ∀ k, ∃ t : ℝ, E.clock k = fin t) (hfloor : 1 / 4503599627370496 ≤ definiteFloor mu g1 D0 L M ga)
    (hfa : E.opts.fatol = fin 0) (hfr : E.opts.frtol = fin 0) (hxt : E.opts.xtol = fin 0) (hgr : E.opts.grtol = fin 0) :
    ∃ st', minimize E loops (ofV x0) startId hess0 st0 = .ok st' ∧ st'.exitflag = .gtol ∧
      ∃ y fo, st'.evals.head? = some { arg := ofV y, out := .ok fo } ∧ rnorm (g y) ≤ ga ∧ (AboveTangents f g → ∀ z, f y ≤ f z + ga * rnorm (y - z)) := by
  obtain ⟨st', h1, h2, x, y, fo, h3, h4, h5, h6⟩ := C90_flag hn hE hU O hX fuel hO hdim H hR L M fmin hL0 hM0 hL hmin hHM x0 startId hess0 st0 happ
    hevs hcond hfile ga hga hga0 hprec hstart loops hloops hiter htime hclock hfloor
  refine ⟨st', h1, ?_⟩
  rcases h2 with h2 | h2 | h2
  · exfalso
    have h := h5 h2
    rw [hfa, hfr] at h
    simp at h
    linarith [abs_nonneg (f y - f x)]
  · exfalso
    have h := h6 h2
    rw [hxt] at h
    simp at h
    linarith [rnorm_nonneg (y - x)]
  · have hsmall : rnorm (g y) ≤ ga := by
      rcases h4 h2 with h | h
      · exact h
      · rw [hgr] at h
        simp at h; linarith [show (0 : ℝ) < 1 / 562949953421312 by norm_num]
    exact ⟨h2, y, fo, h3, hsmall, fun hc z => near_minimal hc hsmall z⟩

noncomputable section

/-- second derivative of `log (1 + exp x)`: positive, and arbitrarily close to zero -/
def softH (x : Fin 1 → ℝ) : Fin 1 → Fin 1 → ℝ := fun _ _ => Real.sigmoid (x 0) * (1 - Real.sigmoid (x 0))

theorem soft_definite (x : Fin 1 → ℝ) : Sym (softH x) ∧ PD (softH x) ∧ ∀ v, rdot v (rmv (softH x) v) ≤ 1 * rdot v v := by
  have h1 := Real.sigmoid_pos (x 0)
  have h2 := Real.sigmoid_lt_one (x 0)
  have e : ∀ v : Fin 1 → ℝ, rdot v (rmv (softH x) v) = Real.sigmoid (x 0) * (1 - Real.sigmoid (x 0)) * (v 0 * v 0) := by
    intro v; simp only [rdot, rmv, softH, Fin.sum_univ_one]; ring
  refine ⟨fun i j => rfl, fun v hv => ?_, fun v => ?_⟩
  · have h0 : v 0 ≠ 0 := fun h => hv (funext fun i => by rw [Subsingleton.elim i 0, h]; rfl)
    rw [e]
    exact mul_pos (mul_pos h1 (by linarith)) (mul_self_pos.mpr h0)
  · rw [e]
    simp only [rdot, Fin.sum_univ_one]
    nlinarith [mul_le_mul_of_nonneg_right (show Real.sigmoid (x 0) * (1 - Real.sigmoid (x 0)) ≤ 1 by nlinarith) (mul_self_nonneg (v 0))]

/-- there is no uniform lower bound of the curvature -/
example (m : ℝ) (hm : 0 < m) : ∃ x v, rdot v v = 1 ∧ rdot v (rmv (softH x) v) < m := by
  refine ⟨fun _ => Real.log (m / 2), fun _ => 1, by simp [rdot], ?_⟩
  simp only [rdot, rmv, softH, Fin.sum_univ_one, one_mul, mul_one]
  rw [Real.sigmoid_def, Real.exp_neg, Real.exp_log (by linarith)]
  have h1 : (1 + (m / 2)⁻¹)⁻¹ = m / (m + 2) := by field_simp
  rw [h1]
  have h2 : m / (m + 2) ≤ m / 2 := div_le_div_of_nonneg_left hm.le (by norm_num) (by linarith)
  have h3 : 0 < m / (m + 2) := by positivity
  nlinarith

/-- an objective with this function, gradient and Hessian, `nan` at `nan` -/
def softObj2 (v : Vec Num 1) : Ret Num :=
  match v 0 with
  | fin r => .tuple [.scalar (fin (softF fun _ => r)), .ofVec (ofV (softG fun _ => r)), .ofMat (ofM (softH fun _ => r))]
  | _ => .tuple [.scalar nan, .ofVec fun _ : Fin 1 => nan, .ofMat fun _ _ : Fin 1 => nan]

theorem softObj2_returns (x : Fin 1 → ℝ) :
    softObj2 (ofV x) = .tuple [.scalar (fin (softF x)), .ofVec (ofV (softG x)), .ofMat (ofM (softH x))] := rfl

/-- the assumptions of `C90_total` hold for the convex function `log (1 + exp x)` with the default solver and the default options -/
example (x0 : Fin 1 → ℝ) (h0 : 1 / 1000000 < Real.sigmoid (x0 0)) (loops : ℕ)
    (hl : definiteBound (1 / 4) (1 / 4) 2 1 1 1 (softF x0 - 0) (1 / 1000000) ≤ loops) :
    ∃ st', minimize (plainEnv 1 softObj2 fun _ => exactRoutines) loops (ofV x0) "0" (.val .none) (St.new (plainEnv 1 softObj2 fun _ => exactRoutines).opts none) = .ok st' ∧
      st'.iteration < definiteBound (1 / 4) (1 / 4) 2 1 1 1 (softF x0 - 0) (1 / 1000000) := by
  have e : rnorm (softG x0) = Real.sigmoid (x0 0) := by
    rw [rnorm]; simp [rdot, softG, Real.sqrt_mul_self_eq_abs, abs_of_pos (Real.sigmoid_pos _)]
  exact C90_total (E := plainEnv 1 softObj2 fun _ => exactRoutines) (f := softF) (g := softG) (by norm_num) (plain_params 1 _ _) (fun _ => ⟨rfl, rfl⟩) (fun _ => exactRoutines) (fun _ => exactRoutines_ok) 1
    (by intro k I; simp only [plainEnv, demo_opts]) (Or.inl (by simp only [plainEnv, demo_opts])) softH ⟨rfl, rfl, fun k x => softObj2_returns x⟩
    1 1 0 one_pos one_pos soft_smooth (fun y => Real.log_nonneg (by have := Real.exp_pos (y 0); linarith)) soft_definite
    x0 "0" (.val .none) _ rfl (fun _ => ⟨_, rfl⟩) (fun _ => ⟨_, rfl⟩) (fun g hg => by cases hg)
    (1 / 1000000) (by simp only [plainEnv, demo_opts]) (by norm_num) (by norm_num) (by rw [e]; exact h0) loops hl

/-- the same run with a large iteration limit and only the gradient tolerance -/
def softEnv2 (N : ℤ) : Env Num 1 :=
  { plainEnv 1 softObj2 (fun _ => exactRoutines) with
    opts := { (resolveOpts [] : Opts Num) with maxiter := N, fatol := fin 0, frtol := fin 0, xtol := fin 0, grtol := fin 0 } }

/-- the assumptions of `C90_flag` and `C90_gtol` hold: this run stops at a point whose value exceeds the value at every other point `z` by at most `|y - z| / 1000000` -/
example (x0 : Fin 1 → ℝ) (h0 : 1 / 1000000 < Real.sigmoid (x0 0)) (N : ℕ)
    (hl : definiteBound (1 / 4) (1 / 4) 2 1 1 1 (softF x0 - 0) (1 / 1000000) ≤ N) :
    ∃ st', minimize (softEnv2 N) N (ofV x0) "0" (.val .none) (St.new (softEnv2 N).opts none) = .ok st' ∧ st'.exitflag = .gtol ∧
      ∃ y fo, st'.evals.head? = some { arg := ofV y, out := .ok fo } ∧ rnorm (softG y) ≤ 1 / 1000000 ∧
        (AboveTangents softF softG → ∀ z, softF y ≤ softF z + 1 / 1000000 * rnorm (y - z)) := by
  have e : rnorm (softG x0) = Real.sigmoid (x0 0) := by
    rw [rnorm]; simp [rdot, softG, Real.sqrt_mul_self_eq_abs, abs_of_pos (Real.sigmoid_pos _)]
  have hE : TRParams (softEnv2 N) (1 / 4) (3 / 4) (1 / 4) 2 1 := by
    constructor <;> try (simp only [softEnv2, plainEnv, demo_opts])
    all_goals norm_num
  refine C90_gtol (E := softEnv2 N) (f := softF) (g := softG) (by norm_num) hE (fun _ => ⟨rfl, rfl⟩) (fun _ => exactRoutines) (fun _ => exactRoutines_ok) 1
    (by intro k I; simp only [softEnv2, plainEnv, demo_opts]) (Or.inl (by simp only [softEnv2, demo_opts])) softH ⟨rfl, rfl, fun k x => softObj2_returns x⟩
    1 1 0 one_pos one_pos soft_smooth (fun y => Real.log_nonneg (by have := Real.exp_pos (y 0); linarith)) soft_definite
    x0 "0" (.val .none) _ rfl (fun _ => ⟨_, rfl⟩) (fun _ => ⟨_, rfl⟩) (fun g hg => by cases hg)
    (1 / 1000000) (by simp only [softEnv2, demo_opts]) (by norm_num) (by norm_num) (by rw [e]; exact h0) N hl
    (by simp only [softEnv2]; exact_mod_cast hl) (by simp only [softEnv2, demo_opts]) (fun _ => ⟨0, rfl⟩) (by norm_num [definiteFloor])
    (by simp [softEnv2]) (by simp [softEnv2]) (by simp [softEnv2]) (by simp [softEnv2])

end

end Fides
