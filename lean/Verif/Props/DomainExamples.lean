import Verif.Props.Domain
import Verif.Props.ConvergenceRate
import Verif.Props.NewtonExamples
import Mathlib.Analysis.SpecialFunctions.Log.Deriv
import Mathlib.Analysis.Complex.ExponentialBounds

/-!
# C84: an objective with a logarithm
-/

namespace Fides
open Num Spec

/-- `x - log x` on the positive numbers -/
noncomputable def barF (x : Fin 1 → ℝ) : ℝ := x 0 - Real.log (x 0)
noncomputable def barG (x : Fin 1 → ℝ) : Fin 1 → ℝ := fun _ => 1 - 1 / x 0
noncomputable def barH (x : Fin 1 → ℝ) : Fin 1 → Fin 1 → ℝ := fun _ _ => 1 / (x 0 * x 0)
def barDom : Set (Fin 1 → ℝ) := {x | 0 < x 0}

/-- the optimizer on that objective, which returns `nan` where the logarithm is not defined; absolute gradient tolerance only -/
noncomputable def barEnv (O : Oracles Num) (dim : SubSpaceDim) (ga : ℝ) (N : ℕ) : Env Num 1 where
  lb _ := ninf
  ub _ := pinf
  opts := { (resolveOpts [] : Opts Num) with subspaceDim := dim, fatol := fin 0, frtol := fin 0, gatol := fin ga, maxiter := N }
  nargout := 3
  resfun := false
  obj _ v := match v 0 with
    | .fin t => if 0 < t then .tuple [.scalar (fin (barF fun _ => t)), .ofVec (ofV (barG fun _ => t)), .ofMat (ofM (barH fun _ => t))]
      else .tuple [.scalar nan, .ofVec fun _ : Fin 1 => nan, .ofMat fun _ _ : Fin 1 => nan]
    | _ => .tuple []
  clock _ := fin 0
  tr _ I := trustRegion O 1 dim .reflect I
  evs _ := .ok (fin 0, fin 0)
  cond _ := .ok (fin 1)

theorem bar_const (x : Fin 1 → ℝ) : (fun _ => x 0) = x := by funext i; fin_cases i; rfl

theorem bar_returns (O : Oracles Num) (dim : SubSpaceDim) (ga : ℝ) (N : ℕ) : ReturnsIn (barEnv O dim ga N) barDom barF barG barH where
  nargout := rfl
  resfun := rfl
  inside k x hx := by
    have h : 0 < x 0 := hx
    show (if 0 < x 0 then _ else _) = _
    rw [if_pos h, bar_const]
  outside k x hx := by
    have h : ¬ 0 < x 0 := hx
    refine ⟨nan, fun _ => nan, fun _ _ => nan, rfl, ⟨0, rfl⟩, ?_⟩
    show (if 0 < x 0 then _ else _) = _
    rw [if_neg h]

theorem bar_params (O : Oracles Num) (dim : SubSpaceDim) (ga : ℝ) (N : ℕ) : TRParams (barEnv O dim ga N) (1 / 4) (3 / 4) (1 / 4) 2 1 := by
  constructor <;> try (simp only [barEnv, demo_opts])
  all_goals norm_num

theorem rnorm_one (v : Fin 1 → ℝ) : rnorm v = |v 0| := by
  rw [rnorm, rdot, Fin.sum_univ_one, Real.sqrt_mul_self_eq_abs]

/-- the points that are not worse than 2 stay away from zero, and below 4 -/
theorem bar_level (x : Fin 1 → ℝ) (hx : x ∈ levelSet barDom barF fun _ => 2) : 1 / 4 ≤ x 0 ∧ x 0 ≤ 4 := by
  obtain ⟨h0, h⟩ := hx
  have h0 : 0 < x 0 := h0
  have h : x 0 - Real.log (x 0) ≤ 2 - Real.log 2 := h
  have he := Real.exp_one_lt_d9
  have he0 := Real.exp_one_gt_d9
  constructor
  · by_contra hcon
    push Not at hcon
    have h1 : Real.log (x 0) < Real.log (2 * Real.exp (-2)) := by
      apply Real.log_lt_log h0
      have h2 : Real.exp (-2) = (Real.exp 1 * Real.exp 1)⁻¹ := by rw [← Real.exp_add, ← Real.exp_neg]; norm_num
      have h3 : Real.exp 1 * Real.exp 1 < 8 := by nlinarith
      have h4 : (8 : ℝ)⁻¹ < (Real.exp 1 * Real.exp 1)⁻¹ := inv_strictAnti₀ (by positivity) h3
      rw [h2]; linarith
    rw [Real.log_mul (by norm_num) (Real.exp_pos _).ne', Real.log_exp] at h1
    linarith
  · have h1 : Real.log (x 0 / 2) ≤ x 0 / 2 - 1 := Real.log_le_sub_one_of_pos (by positivity)
    rw [Real.log_div h0.ne' (by norm_num)] at h1
    linarith

theorem bar_smooth : SmoothNear 32 (1 / 8) barDom (levelSet barDom barF fun _ => 2) barF barG where
  inside x hx p hp := by
    have h := (bar_level x hx).1
    rw [rnorm_one, abs_lt] at hp
    show 0 < x 0 + p 0
    linarith
  deriv x hx p hp s := by
    have h := (bar_level x hx).1
    rw [rnorm_one, abs_lt] at hp
    have hpos : x 0 + p 0 ≠ 0 := by linarith
    have h0 : HasDerivAt (fun t : ℝ => x 0 + p 0 + t * s 0) (s 0) 0 := by
      simpa using ((hasDerivAt_id (0 : ℝ)).mul_const (s 0)).const_add (x 0 + p 0)
    have h1 := h0.sub (h0.log (by simpa using hpos))
    have e : (fun t : ℝ => barF (x + p + t • s)) = fun t : ℝ => (x 0 + p 0 + t * s 0) - Real.log (x 0 + p 0 + t * s 0) := by
      funext t; simp [barF]
    rw [e]
    refine h1.congr_deriv ?_
    simp [rdot, barG]
    ring
  lipschitz x hx p hp := by
    have h := (bar_level x hx).1
    rw [rnorm_one, abs_lt] at hp
    have h1 : 0 < x 0 := by linarith
    have h2 : 1 / 8 < x 0 + p 0 := by linarith
    have e : (barG (x + p) - barG x) 0 = p 0 / (x 0 * (x 0 + p 0)) := by
      simp only [barG, Pi.sub_apply, Pi.add_apply]
      have : x 0 + p 0 ≠ 0 := by linarith
      field_simp
      ring
    rw [rnorm_one, rnorm_one, e, abs_div, div_le_iff₀ (by positivity)]
    have h3 : (1 : ℝ) ≤ 32 * |x 0 * (x 0 + p 0)| := by
      rw [abs_of_pos (by positivity)]
      have := mul_le_mul h h2.le (by norm_num) h1.le
      linarith
    nlinarith [abs_nonneg (p 0), mul_le_mul_of_nonneg_left h3 (abs_nonneg (p 0))]

theorem bar_hess (x : Fin 1 → ℝ) (hx : x ∈ levelSet barDom barF fun _ => 2) :
    Sym (barH x) ∧ ∀ v, 1 / 16 * rdot v v ≤ rdot v (rmv (barH x) v) ∧ rdot v (rmv (barH x) v) ≤ 16 * rdot v v := by
  obtain ⟨h1, h2⟩ := bar_level x hx
  refine ⟨fun i j => rfl, fun v => ?_⟩
  have hp : 0 < x 0 * x 0 := by nlinarith
  have h3 : 1 / 16 ≤ 1 / (x 0 * x 0) := by
    apply one_div_le_one_div_of_le hp; nlinarith
  have h4 : 1 / (x 0 * x 0) ≤ 16 := by
    rw [div_le_iff₀ hp]; nlinarith
  have e : rdot v (rmv (barH x) v) = 1 / (x 0 * x 0) * rdot v v := by
    simp [rdot, rmv, barH]; ring
  have h5 := rdot_self_nonneg v
  rw [e]
  exact ⟨mul_le_mul_of_nonneg_right h3 h5, mul_le_mul_of_nonneg_right h4 h5⟩

theorem bar_below (x : Fin 1 → ℝ) (hx : x ∈ barDom) : 1 ≤ barF x := by
  have := Real.log_le_sub_one_of_pos (show 0 < x 0 from hx)
  unfold barF; linarith

theorem bar_start : rnorm (barG fun _ => 2) = 1 / 2 := by
  rw [rnorm_one]; norm_num [barG]

/-- the assumptions of `C84_gtol` hold for this objective, started at 2 -/
example (ga : ℝ) (h1 : 1 / 1000000 ≤ ga) (h2 : ga < 1 / 2) :
    let N := domainBound (1 / 4) (1 / 4) 2 1 32 16 (1 / 8) (barF (fun _ => 2) - 1) ga
    ∃ st', minimize (barEnv zeroOracles .steihaug ga N) N (ofV fun _ => 2) "0" (.val .none) (St.new (barEnv zeroOracles .steihaug ga N).opts none) = .ok st' ∧
      st'.exitflag = .gtol ∧ ∃ y fo, st'.evals.head? = some { arg := ofV y, out := .ok fo } ∧ y ∈ barDom ∧ rnorm (barG y) ≤ ga := by
  intro N
  refine C84_gtol (bar_params _ _ ga N) (fun _ => ⟨rfl, rfl⟩) (by norm_num) (fun _ => zeroOracles) ?_ rfl barH (bar_returns _ _ ga N) 32 16 (1 / 8) 1
    (by norm_num) (by norm_num) (by norm_num) _ (show (0 : ℝ) < 2 by norm_num) bar_smooth ?_ bar_below "0" (.val .none) _ rfl (fun _ => ⟨_, rfl⟩) (fun _ => ⟨_, rfl⟩) ?_ ga rfl (by linarith)
    (by rw [bar_start]; exact h2) N le_rfl ?_ ?_ (fun _ => ⟨0, rfl⟩) ?_ rfl rfl ?_ ?_
  · intro k I; simp only [barEnv, demo_opts]
  · intro x hx
    obtain ⟨h3, h4⟩ := bar_hess x hx
    refine ⟨h3, fun v => ?_⟩
    obtain ⟨h5, h6⟩ := h4 v
    rw [abs_of_nonneg (by have := rdot_self_nonneg v; linarith)]
    exact h6
  · intro grp hgrp; simp [St.new] at hgrp
  · exact le_rfl
  · simp only [barEnv, demo_opts]
  · unfold domainFloor
    refine le_min (by norm_num) ?_
    rw [min_self]
    have : (1 : ℝ) / 100000000 ≤ min (1 / 8) (min (ga / 16) ((1 - 1 / 4) * ga / (32 + 16))) := by
      refine le_min (by norm_num) (le_min (by linarith) (by linarith))
    linarith
  · simp only [barEnv, demo_opts]
  · simp only [barEnv, demo_opts]

/-- the assumptions of `C84_newton` hold as well, with the default solver and exact linear algebra -/
example (ga : ℝ) (h1 : 1 / 1000000 ≤ ga) (h2 : ga < 1 / 2) :
    let N := domainNewtonBound (1 / 4) (1 / 4) 2 1 32 (1 / 16) 16 (1 / 8) (barF (fun _ => 2) - 1) ga
    ∃ st', minimize (barEnv exactRoutines .two ga N) N (ofV fun _ => 2) "0" (.val .none) (St.new (barEnv exactRoutines .two ga N).opts none) = .ok st' ∧
      st'.exitflag = .gtol ∧ ∃ y fo, st'.evals.head? = some { arg := ofV y, out := .ok fo } ∧ y ∈ barDom ∧ rnorm (barG y) ≤ ga := by
  intro N
  refine C84_newton (bar_params _ _ ga N) (fun _ => ⟨rfl, rfl⟩) (by norm_num) (fun _ => exactRoutines) (fun _ => exactRoutines_ok) 1 ?_ (Or.inl rfl) barH (bar_returns _ _ ga N)
    32 (1 / 16) 16 (1 / 8) 1
    (by norm_num) (by norm_num) (by norm_num) (by norm_num) _ (show (0 : ℝ) < 2 by norm_num) bar_smooth bar_hess bar_below "0" (.val .none) _ rfl (fun _ => ⟨_, rfl⟩) (fun _ => ⟨_, rfl⟩) ?_ ga rfl (by linarith)
    (by linarith) (by rw [bar_start]; exact h2) N le_rfl ?_ ?_ (fun _ => ⟨0, rfl⟩) ?_ rfl rfl ?_ ?_
  · intro k I; simp only [barEnv, demo_opts]
  · intro grp hgrp; simp [St.new] at hgrp
  · exact le_rfl
  · simp only [barEnv, demo_opts]
  · unfold domainNewtonFloor
    refine le_min (by norm_num) ?_
    rw [min_self]
    have : (1 : ℝ) / 100000000000 ≤ min (1 / 8) (min (ga / (2 * 16)) ((1 - 1 / 4) * (1 / 16) * ga / (32 * 16))) := by
      refine le_min (by norm_num) (le_min (by linarith) (by linarith))
    linarith
  · simp only [barEnv, demo_opts]
  · simp only [barEnv, demo_opts]

end Fides
