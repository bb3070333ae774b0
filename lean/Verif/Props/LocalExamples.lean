import Verif.Props.LocalConvergence

/-! Examples for C73: the assumptions are met by a concrete objective that is not quadratic (and not even bounded below). -/

namespace Fides
open Num Spec
variable {n : ℕ}

/-- `Σ x_i² / 2 + x_i³ / 6`, with a local minimum at the origin -/
noncomputable def cubicF (x : Fin n → ℝ) : ℝ := ∑ i, (x i ^ 2 / 2 + x i ^ 3 / 6)
noncomputable def cubicG (x : Fin n → ℝ) (i : Fin n) : ℝ := x i + x i ^ 2 / 2
noncomputable def cubicH (x : Fin n → ℝ) (i j : Fin n) : ℝ := if i = j then 1 + x i else 0

theorem cubicH_mv (x v : Fin n → ℝ) (i : Fin n) : rmv (cubicH x) v i = (1 + x i) * v i := by
  simp [rmv, rdot, cubicH]

theorem entry_le_rnorm (x : Fin n → ℝ) (i : Fin n) : |x i| ≤ rnorm x := by
  rw [rnorm, ← Real.sqrt_sq_eq_abs]
  apply Real.sqrt_le_sqrt
  rw [rdot, pow_two]
  exact Finset.single_le_sum (f := fun i => x i * x i) (fun i _ => mul_self_nonneg _) (Finset.mem_univ i)

theorem cubic_curved : CurvedMinimum (n := n) (1 / 2) (1 / 2) 1 cubicF cubicG cubicH 0 where
  m_pos := by norm_num
  L_nonneg := by norm_num
  stationary := by funext i; simp [cubicG]
  gradient x _ s := by
    unfold cubicF
    have h : ∀ i : Fin n, HasDerivAt (fun t : ℝ => (x + t • s) i ^ 2 / 2 + (x + t • s) i ^ 3 / 6) (cubicG x i * s i) 0 := by
      intro i
      have h1 : HasDerivAt (fun t : ℝ => x i + t * s i) (s i) 0 := by
        simpa using ((hasDerivAt_id (0 : ℝ)).mul_const (s i)).const_add (x i)
      have h2 := ((h1.pow 2).div_const 2).add ((h1.pow 3).div_const 6)
      refine (h2.congr_deriv ?_)
      simp [cubicG]; ring
    exact HasDerivAt.fun_sum fun i _ => h i
  hessian x _ s i := by
    rw [cubicH_mv]
    have h1 : HasDerivAt (fun t : ℝ => x i + t * s i) (s i) 0 := by
      simpa using ((hasDerivAt_id (0 : ℝ)).mul_const (s i)).const_add (x i)
    refine (h1.add ((h1.pow 2).div_const 2)).congr_deriv ?_
    simp; ring
  symmetric x _ i j := by
    unfold cubicH
    by_cases h : i = j
    · subst h; rfl
    · rw [if_neg h, if_neg (Ne.symm h)]
  curved x hx v := by
    rw [sub_zero] at hx
    rw [rdot, rdot, Finset.mul_sum]
    apply Finset.sum_le_sum
    intro i _
    rw [cubicH_mv]
    have h1 := (abs_le.mp ((entry_le_rnorm x i).trans hx)).1
    nlinarith [mul_self_nonneg (v i)]
  lipschitz x y _ _ v := by
    rw [one_mul, rnorm_le_iff (mul_nonneg (rnorm_nonneg _) (rnorm_nonneg _))]
    have h : ∀ i, (rmv (cubicH y) v - rmv (cubicH x) v) i = (y - x) i * v i := by
      intro i
      simp only [Pi.sub_apply, cubicH_mv]; ring
    have h2 : rdot (rmv (cubicH y) v - rmv (cubicH x) v) (rmv (cubicH y) v - rmv (cubicH x) v) ≤ rnorm (y - x) ^ 2 * rdot v v := by
      rw [rdot, rdot, Finset.mul_sum]
      apply Finset.sum_le_sum
      intro i _
      rw [h]
      have h3 : (y - x) i ^ 2 ≤ rnorm (y - x) ^ 2 := by
        rw [← sq_abs]
        exact pow_le_pow_left₀ (abs_nonneg _) (entry_le_rnorm _ i) 2
      nlinarith [mul_self_nonneg (v i)]
    rw [← rnorm_sq v] at h2
    linarith

theorem cubic_upper (x : Fin n → ℝ) (hx : rnorm (x - 0) ≤ 1 / 2) (v : Fin n → ℝ) : rdot v (rmv (cubicH x) v) ≤ 3 / 2 * rdot v v := by
  rw [sub_zero] at hx
  rw [rdot, rdot, Finset.mul_sum]
  apply Finset.sum_le_sum
  intro i _
  rw [cubicH_mv]
  have h1 := (abs_le.mp ((entry_le_rnorm x i).trans hx)).2
  nlinarith [mul_self_nonneg (v i)]

/-- default options except for the tolerances: only `gatol` is used, which has its default value -/
noncomputable def localEnv (n : ℕ) (f : (Fin n → ℝ) → ℝ) (g : (Fin n → ℝ) → Fin n → ℝ) (H : (Fin n → ℝ) → Fin n → Fin n → ℝ) : Env Num n :=
  { plainEnv n (objOf f g H) (fun _ => exactRoutines) with
    opts := { (resolveOpts [] : Opts Num) with fatol := fin 0, frtol := fin 0 } }

/-- from every point in the basin the run of `C73_minimizer` on this objective ends after at most four iterations -/
theorem cubic_run (hn : 0 < n) (x0 : Fin n → ℝ) (h0 : rnorm x0 ≤ 1 / 2) (hf : cubicF x0 ≤ 1 / 144) (hg : 1 / 1000000 < rnorm (cubicG x0)) :
    ∃ st', minimize (localEnv n cubicF cubicG cubicH) 5 (ofV x0) "0" (.val .none) (St.new (localEnv n cubicF cubicG cubicH).opts none) = .ok st' ∧
      st'.exitflag = .gtol ∧ st'.iteration ≤ 4 ∧ ∃ x : Fin n → ℝ, st'.xMin = ofV x ∧ rnorm (cubicG x) ≤ 1 / 1000000 ∧ rnorm x ≤ 2 / 1000000 := by
  have hE : TRParams (localEnv n cubicF cubicG cubicH) (1 / 4) (3 / 4) (1 / 4) 2 1 := by
    constructor <;> try (simp only [localEnv, demo_opts])
    all_goals norm_num
  have hR : Returns (localEnv n cubicF cubicG cubicH) cubicF cubicG cubicH := ⟨rfl, rfl, fun k x => objOf_real cubicF cubicG cubicH x⟩
  have hB : BasinSize (1 / 2) (1 / 2) 1 (3 / 4) (1 / 6) := by constructor <;> norm_num
  have hF0 : cubicF (0 : Fin n → ℝ) = 0 := by simp [cubicF]
  obtain ⟨st', h1, h2, h3, x, h4, h5, h6, h7, h8, h9⟩ := C73_minimizer hn hE (fun _ => ⟨rfl, rfl⟩) (fun _ => exactRoutines) (fun _ => exactRoutines_ok) n
    (by intro k I; simp only [localEnv, plainEnv, demo_opts]) (Or.inl (by simp only [localEnv, demo_opts])) hR cubic_curved hB (M := 3 / 2) (by norm_num) cubic_upper
    x0 "0" (.val .none) (St.new (localEnv n cubicF cubicG cubicH).opts none) rfl (fun _ => ⟨_, rfl⟩) (fun _ => ⟨_, rfl⟩) (by intro grp h; simp [St.new] at h)
    (1 / 1000000) (by simp only [localEnv, demo_opts]) (by norm_num) hg ⟨by rw [sub_zero]; exact h0, by rw [hF0]; norm_num; linarith⟩
    (by simp only [localEnv, demo_opts]) rfl rfl (by simp only [localEnv, demo_opts]) 0 (by norm_num) 4 (by norm_num) 5 (by norm_num)
    (by simp only [localEnv, demo_opts]; norm_num) (by simp only [localEnv, demo_opts]) (fun _ => ⟨0, rfl⟩) (by norm_num)
  exact ⟨st', h1, h2, h3, x, h5, h8, by rw [sub_zero] at h9; norm_num at h9 ⊢; exact h9⟩

/-- a concrete starting point -/
example : ∃ st', minimize (localEnv 2 cubicF cubicG cubicH) 5 (ofV ![1 / 10, -1 / 20]) "0" (.val .none) (St.new (localEnv 2 cubicF cubicG cubicH).opts none) = .ok st' ∧
    st'.exitflag = .gtol ∧ st'.iteration ≤ 4 ∧ ∃ x : Fin 2 → ℝ, st'.xMin = ofV x ∧ rnorm x ≤ 2 / 1000000 := by
  obtain ⟨st', h1, h2, h3, x, h4, -, h5⟩ := cubic_run (n := 2) (by norm_num) ![1 / 10, -1 / 20]
    (by rw [rnorm_le_iff (by norm_num)]; simp [rdot, Fin.sum_univ_two]; norm_num)
    (by simp [cubicF, Fin.sum_univ_two]; norm_num)
    (by
      have h := entry_le_rnorm (cubicG ![(1 : ℝ) / 10, -1 / 20]) 0
      refine lt_of_lt_of_le ?_ h
      simp [cubicG]
      rw [abs_of_pos (by norm_num)]; norm_num)
  exact ⟨st', h1, h2, h3, x, h4, h5⟩

end Fides
