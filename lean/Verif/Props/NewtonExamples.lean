import Verif.Props.NewtonConvergence
import Verif.Props.ConvergenceRate
import Verif.Lemmas.Stall
import Verif.Lemmas.ExactRoutines
import Mathlib.Analysis.SpecialFunctions.Trigonometric.Deriv
import Mathlib.Analysis.SpecialFunctions.Trigonometric.Bounds

/-!
# Property C63: where the default solver stalls, and a problem meeting the assumptions of the positive part
-/

namespace Fides
open Num Spec
variable {n : ℕ}

/-- **C63, stalling.** Unbounded problems, default solver, exact arithmetic and exact linear algebra: whenever an iteration starts where the
model Hessian `B` is positive semidefinite, not zero, and `B g = 0` for the nonzero gradient `g`, the iteration does not move, the trust radius
becomes zero, and the run ends. -/
theorem C63_stall_counterexample {E : Env Num n} {f : (Fin n → ℝ) → ℝ} {g : (Fin n → ℝ) → Fin n → ℝ} {mu eta g1 g2 D0 : ℝ}
    (hE : TRParams E mu eta g1 g2 D0) (hU : NoBounds E.lb E.ub) (O : ℕ → Oracles Num) (hX : ∀ k, ExactRoutines (O k)) (fuel : ℕ)
    (hO : ∀ k I, E.tr k I = trustRegion (O k) fuel E.opts.subspaceDim E.opts.stepbackStrat I) (hdim : E.opts.subspaceDim = .two)
    (hev : Evaluates E f g) {prev next : St Num n} {cur cur' new : Funout Num n} {step : Step Num n} (hp : Pass E prev cur step new next cur')
    (x : Fin n → ℝ) (B : Fin n → Fin n → ℝ) (D : ℝ) (hx : prev.x = ofV x) (hg : prev.grad = ofV (g x)) (hH : prev.hess = ofM B)
    (hd : prev.delta = fin D) (hD : 0 < D) (hS : Sym B) (hpsd : ∀ v, 0 ≤ rdot v (rmv B v)) (hB0 : B ≠ 0) (hg0 : g x ≠ 0) (hk : rmv B (g x) = 0) :
    next.x = ofV x ∧ next.delta = fin 0 ∧ (checkContinue E next).1 = false := by
  have hpr := hp.proposal
  rw [hO, hdim] at hpr
  obtain ⟨th, hP⟩ := unbounded_data hE hU { prev with iteration := prev.iteration + 1, deltaIter := prev.delta, ticks := prev.ticks + 1 } x (g x) B D hx hg hH hd
  rw [C51_one_candidate _ _ _ _ _ hU th hP.theta hP.th0] at hpr
  obtain ⟨st', h1, h2, h3, h4⟩ := stall_step hP hU hS hpsd hD (O prev.proposals) (hX _) hg0 hk hB0
  have hst : st' = step := by
    have : step2d (O prev.proposals) (trInput E { prev with iteration := prev.iteration + 1, deltaIter := prev.delta, ticks := prev.ticks + 1 }).prob = .ok step := hpr
    rw [h1] at this; cases this; rfl
  subst hst
  have hF := pass_facts E _ _ _ _ _ _ hp
  obtain ⟨_, hnf, _⟩ := pass_evaluates hev hp x (by rw [hx]; exact h3)
  obtain ⟨hr1, hr2, _⟩ := stall_radius hE prev st' new D (f x) hD hd hnf h2 h4
  have hnd : next.delta = fin 0 := by rw [hF.delta, hr2]
  refine ⟨?_, hnd, ?_⟩
  · rcases hF.cases with ⟨h, _⟩ | ⟨_, _, h, _⟩
    · rw [hr1] at h; cases h
    · rw [h, hx]
  · by_contra hcon
    rw [Bool.not_eq_false] at hcon
    have h5 := checkContinue_true E next (checkContinue E next).2 (Prod.ext hcon rfl)
    have h6 := h5.2.2
    rw [hnd] at h6
    norm_num [spacing1] at h6

noncomputable section

/-- `x₀² / 2 + sin x₁` -/
def valleyF (x : Fin 2 → ℝ) : ℝ := x 0 ^ 2 / 2 + Real.sin (x 1)
/-- its gradient -/
def valleyG (x : Fin 2 → ℝ) : Fin 2 → ℝ := ![x 0, Real.cos (x 1)]
/-- its Hessian -/
def valleyH (x : Fin 2 → ℝ) : Fin 2 → Fin 2 → ℝ := ![![1, 0], ![0, -Real.sin (x 1)]]

/-- the optimizer on an unbounded problem with default options and the given linear algebra routines -/
def plainEnv (n : ℕ) (obj : Vec Num n → Ret Num) (O : ℕ → Oracles Num) : Env Num n where
  lb _ := ninf
  ub _ := pinf
  opts := resolveOpts []
  nargout := 3
  resfun := false
  obj _ x := obj x
  clock _ := fin 0
  tr k I := trustRegion (O k) n .two .reflect I
  evs _ := .ok (fin 0, fin 0)
  cond _ := .ok (fin 1)

theorem plain_params (n : ℕ) (obj : Vec Num n → Ret Num) (O : ℕ → Oracles Num) : TRParams (plainEnv n obj O) (1 / 4) (3 / 4) (1 / 4) 2 1 := by
  constructor <;> try (simp only [plainEnv, demo_opts])
  all_goals norm_num

theorem valley_smooth : SmoothWith 1 valleyF valleyG where
  deriv x s := by
    have h0 : HasDerivAt (fun t : ℝ => x 0 + t * s 0) (s 0) 0 := by
      simpa using ((hasDerivAt_id (0 : ℝ)).mul_const (s 0)).const_add (x 0)
    have h1 : HasDerivAt (fun t : ℝ => x 1 + t * s 1) (s 1) 0 := by
      simpa using ((hasDerivAt_id (0 : ℝ)).mul_const (s 1)).const_add (x 1)
    have h2 := ((h0.pow 2).div_const 2).add h1.sin
    have e : (fun t : ℝ => valleyF (x + t • s)) = fun t : ℝ => (x 0 + t * s 0) ^ 2 / 2 + Real.sin (x 1 + t * s 1) := by
      funext t; simp [valleyF]
    rw [e]
    have hr : rdot (valleyG x) s = ((2 : ℕ) : ℝ) * (x 0 + 0 * s 0) ^ (2 - 1) * s 0 / 2 + Real.cos (x 1 + 0 * s 1) * s 1 := by
      simp [rdot, Fin.sum_univ_two, valleyG]
      ring
    rw [hr]
    exact h2
  lipschitz x y := by
    rw [one_mul, rnorm_le_iff (rnorm_nonneg _), rnorm_sq]
    simp only [rdot, Fin.sum_univ_two, valleyG]
    have h := Real.abs_cos_sub_cos_le (y 1) (x 1)
    have h2 := mul_self_le_mul_self (abs_nonneg _) h
    rw [abs_mul_abs_self, abs_mul_abs_self] at h2
    simp
    linarith

theorem valley_below (x : Fin 2 → ℝ) : -1 ≤ valleyF x := by
  have := Real.neg_one_le_sin (x 1)
  unfold valleyF
  nlinarith [sq_nonneg (x 0)]

theorem valley_form (x v : Fin 2 → ℝ) : rdot v (rmv (valleyH x) v) = v 0 * v 0 - Real.sin (x 1) * (v 1 * v 1) := by
  simp [rdot, rmv, Fin.sum_univ_two, valleyH]; ring

theorem valley_bounded (x : Fin 2 → ℝ) : Sym (valleyH x) ∧ ∀ v, |rdot v (rmv (valleyH x) v)| ≤ 1 * rdot v v := by
  refine ⟨?_, fun v => ?_⟩
  · intro i j
    fin_cases i <;> fin_cases j <;> rfl
  · rw [valley_form]
    have e : rdot v v = v 0 * v 0 + v 1 * v 1 := by simp [rdot, Fin.sum_univ_two]
    rw [e, abs_le]
    have h1 := Real.neg_one_le_sin (x 1)
    have h2 := Real.sin_le_one (x 1)
    have h3 := mul_self_nonneg (v 0)
    have h4 := mul_self_nonneg (v 1)
    constructor <;> nlinarith

/-- **C63 is false in general.** There is an objective on the plane with Lipschitz continuous gradient, bounded below, with bounded Hessians, and a
starting point with gradient of length 1, such that the optimizer with default options makes one iteration and stops where it started, whatever
exact linear algebra it uses. -/
theorem C63_counterexample : ∃ (f : (Fin 2 → ℝ) → ℝ) (g : (Fin 2 → ℝ) → Fin 2 → ℝ) (H : (Fin 2 → ℝ) → Fin 2 → Fin 2 → ℝ) (x0 : Fin 2 → ℝ),
    SmoothWith 1 f g ∧ (∀ y, -1 ≤ f y) ∧ (∀ x, Sym (H x) ∧ ∀ v, |rdot v (rmv (H x) v)| ≤ 1 * rdot v v) ∧ rnorm (g x0) = 1 ∧
      ∀ (obj : Vec Num 2 → Ret Num) (O : ℕ → Oracles Num), (∀ k, ExactRoutines (O k)) → Returns (plainEnv 2 obj O) f g H → ∀ fuel,
        ∃ st', minimize (plainEnv 2 obj O) (fuel + 1) (ofV x0) "0" (.val .none) (St.new (plainEnv 2 obj O).opts none) = .ok st' ∧
          st'.x = ofV x0 ∧ st'.iteration = 1 ∧ st'.exitflag = .deltaTooSmall := by
  have hg : valleyG 0 = ![0, 1] := by simp [valleyG]
  have hgn : rnorm (valleyG 0) = 1 := by
    rw [hg, rnorm, show rdot ![(0 : ℝ), 1] ![0, 1] = 1 by simp [rdot, Fin.sum_univ_two], Real.sqrt_one]
  refine ⟨valleyF, valleyG, valleyH, 0, valley_smooth, valley_below, valley_bounded, hgn, ?_⟩
  intro obj O hX hR fuel
  obtain ⟨st', h1, h2, _, _, h3, h4⟩ := stall_run (by decide) (plain_params 2 obj O) (fun _ => ⟨rfl, rfl⟩) O hX 2 (by intro k I; simp only [plainEnv, demo_opts])
    (by simp only [plainEnv, demo_opts]) valleyH hR 0 "0" (.val .none) (St.new (plainEnv 2 obj O).opts none) rfl
    (by simp only [plainEnv, demo_opts]) (by simp only [plainEnv, demo_opts]; norm_num) (by simp only [plainEnv, demo_opts]) (fun _ => ⟨0, rfl⟩) (by norm_num)
    (1 / 1000000) 0 (by simp only [plainEnv, demo_opts]) (by simp only [plainEnv, demo_opts]) (by rw [hgn]; norm_num) (by rw [hgn]; norm_num)
    (valley_bounded 0).1 (fun v => by rw [valley_form]; simp; exact mul_self_nonneg _)
    (by intro h; have := congrFun (congrFun h 0) 0; simp [valleyH] at this)
    (by intro h; have := congrFun h 1; rw [hg] at this; simp at this)
    (by rw [hg]; funext i; fin_cases i <;> simp [rmv, rdot, Fin.sum_univ_two, valleyH]) fuel
  exact ⟨st', h1, h2, h3, h4⟩

/-- such an objective can be handed to the optimizer, and exact routines exist -/
example : ∃ (obj : Vec Num 2 → Ret Num) (O : ℕ → Oracles Num), (∀ k, ExactRoutines (O k)) ∧ Returns (plainEnv 2 obj O) valleyF valleyG valleyH := by
  classical
  refine ⟨fun v => if h : ∃ x, v = ofV x then
    .tuple [.scalar (fin (valleyF h.choose)), .ofVec (ofV (valleyG h.choose)), .ofMat (ofM (valleyH h.choose))] else .tuple [], fun _ => exactRoutines,
    fun _ => exactRoutines_ok, rfl, rfl, ?_⟩
  intro k x
  have hex : ∃ x', (ofV x : Vec Num 2) = ofV x' := ⟨x, rfl⟩
  have hx : hex.choose = x := (ofV_inj.mp hex.choose_spec).symm
  show (if h : ∃ x', (ofV x : Vec Num 2) = ofV x' then _ else _) = _
  rw [dif_pos hex, hx]

/-- half the squared distance to the origin, default solver, absolute gradient tolerance only -/
def bowlEnv2 (n : ℕ) (ga : ℝ) (N : ℕ) : Env Num n :=
  { bowlEnv n ga N with
    opts := { (resolveOpts [] : Opts Num) with fatol := fin 0, frtol := fin 0, gatol := fin ga, maxiter := N }
    tr := fun _ I => trustRegion exactRoutines n .two .reflect I }

/-- the assumptions of `C63_gtol_partial` hold for the bowl in any number of dimensions, from any starting point further from the origin than the tolerance -/
example (n : ℕ) (hn : 0 < n) (x0 : Fin n → ℝ) (ga : ℝ) (hga : 1 / 1000000 ≤ ga) (h0 : ga < rnorm x0) :
    let N := newtonBound (1 / 4) (1 / 4) 2 1 1 1 1 (1 / 2 * rdot x0 x0) ga
    ∃ st', minimize (bowlEnv2 n ga N) N (ofV x0) "0" (.val .none) (St.new (bowlEnv2 n ga N).opts none) = .ok st' ∧ st'.exitflag = .gtol ∧
      ∃ y fo, st'.evals.head? = some { arg := ofV y, out := .ok fo } ∧ rnorm y ≤ ga := by
  intro N
  have hE : TRParams (bowlEnv2 n ga N) (1 / 4) (3 / 4) (1 / 4) 2 1 := by
    constructor <;> try (simp only [bowlEnv2, demo_opts])
    all_goals norm_num
  have hR : Returns (bowlEnv2 n ga N) (fun x => 1 / 2 * rdot x x) (fun x => x) (fun _ => idM) :=
    ⟨rfl, rfl, fun k x => (bowl_returns n ga N).obj k x⟩
  refine C63_gtol_partial hn hE (fun _ => ⟨rfl, rfl⟩) (fun _ => exactRoutines) (fun _ => exactRoutines_ok) n ?_ (Or.inl ?_) (fun _ => idM) hR
    1 1 1 0 (by norm_num) (by norm_num) le_rfl (bowl_smooth n) ?_ ?_ x0 "0" (.val .none) _ rfl (fun _ => ⟨_, rfl⟩) (fun _ => ⟨_, rfl⟩) ?_ ga rfl (by linarith)
    (by rw [div_one]; linarith) h0 N ?_ ?_ ?_ (fun _ => ⟨0, rfl⟩) ?_ rfl rfl ?_ ?_
  · intro k I; simp only [bowlEnv2, demo_opts]
  · simp only [bowlEnv2, demo_opts]
  · intro y; have := rdot_self_nonneg y; positivity
  · intro x
    refine ⟨?_, fun v => ?_⟩
    · intro i j; simp [idM, eq_comm]
    · rw [idM_rmv, one_mul]; exact ⟨le_rfl, le_rfl⟩
  · intro grp h; simp [St.new] at h
  · rw [sub_zero]
  · rw [sub_zero]; exact le_rfl
  · simp only [bowlEnv2, demo_opts]
  · unfold newtonFloor
    refine le_min (by norm_num) ?_
    rw [min_self]
    have : ga / 2 ≤ min (ga / (2 * 1)) ((1 - 1 / 4) * 1 * ga / (1 * 1)) := le_min (by linarith) (by linarith)
    linarith
  · simp only [bowlEnv2, demo_opts]
  · simp only [bowlEnv2, demo_opts]

end

end Fides
