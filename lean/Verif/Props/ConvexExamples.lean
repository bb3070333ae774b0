import Verif.Props.Convex
import Verif.Props.LocalExamples
import Mathlib.Analysis.SpecialFunctions.Trigonometric.Bounds

/-! Examples for C80: the assumptions are met by a concrete strongly convex objective that is not quadratic. -/

namespace Fides
open Num Spec
variable {n : ℕ}

/-- `Σ x_i² + cos x_i`, with curvatures between 1 and 3 and minimizer 0 -/
noncomputable def wavyF (x : Fin n → ℝ) : ℝ := ∑ i, (x i ^ 2 + Real.cos (x i))
noncomputable def wavyG (x : Fin n → ℝ) (i : Fin n) : ℝ := 2 * x i - Real.sin (x i)
noncomputable def wavyH (x : Fin n → ℝ) (i j : Fin n) : ℝ := if i = j then 2 - Real.cos (x i) else 0

theorem wavyH_mv (x v : Fin n → ℝ) (i : Fin n) : rmv (wavyH x) v i = (2 - Real.cos (x i)) * v i := by
  simp [rmv, rdot, wavyH]

theorem wavy_convex : StronglyConvex (n := n) 1 3 1 wavyF wavyG wavyH where
  m_pos := by norm_num
  m_le := by norm_num
  L_nonneg := by norm_num
  gradient x s := by
    unfold wavyF
    have h : ∀ i : Fin n, HasDerivAt (fun t : ℝ => (x + t • s) i ^ 2 + Real.cos ((x + t • s) i)) (wavyG x i * s i) 0 := by
      intro i
      have h1 : HasDerivAt (fun t : ℝ => x i + t * s i) (s i) 0 := by
        simpa using ((hasDerivAt_id (0 : ℝ)).mul_const (s i)).const_add (x i)
      refine ((h1.pow 2).add h1.cos).congr_deriv ?_
      simp [wavyG]; ring
    exact HasDerivAt.fun_sum fun i _ => h i
  hessian x s i := by
    rw [wavyH_mv]
    have h1 : HasDerivAt (fun t : ℝ => x i + t * s i) (s i) 0 := by
      simpa using ((hasDerivAt_id (0 : ℝ)).mul_const (s i)).const_add (x i)
    refine ((h1.const_mul 2).sub h1.sin).congr_deriv ?_
    simp; ring
  symmetric x i j := by
    unfold wavyH
    by_cases h : i = j
    · subst h; rfl
    · rw [if_neg h, if_neg (Ne.symm h)]
  lower x v := by
    rw [rdot, rdot, Finset.mul_sum]
    apply Finset.sum_le_sum
    intro i _
    rw [wavyH_mv]
    nlinarith [mul_self_nonneg (v i), Real.cos_le_one (x i)]
  upper x v := by
    rw [rdot, rdot, Finset.mul_sum]
    apply Finset.sum_le_sum
    intro i _
    rw [wavyH_mv]
    nlinarith [mul_self_nonneg (v i), Real.neg_one_le_cos (x i)]
  lipschitz x y v := by
    rw [one_mul, rnorm_le_iff (mul_nonneg (rnorm_nonneg _) (rnorm_nonneg _))]
    have h : ∀ i, (rmv (wavyH y) v - rmv (wavyH x) v) i = (Real.cos (x i) - Real.cos (y i)) * v i := by
      intro i
      simp only [Pi.sub_apply, wavyH_mv]; ring
    have h2 : rdot (rmv (wavyH y) v - rmv (wavyH x) v) (rmv (wavyH y) v - rmv (wavyH x) v) ≤ rnorm (y - x) ^ 2 * rdot v v := by
      rw [rdot, rdot, Finset.mul_sum]
      apply Finset.sum_le_sum
      intro i _
      rw [h]
      have h3 : (Real.cos (x i) - Real.cos (y i)) ^ 2 ≤ rnorm (y - x) ^ 2 := by
        rw [← sq_abs]
        refine pow_le_pow_left₀ (abs_nonneg _) ?_ 2
        have h5 : |x i - y i| ≤ rnorm (y - x) := by rw [abs_sub_comm]; exact entry_le_rnorm (y - x) i
        exact le_trans (Real.abs_cos_sub_cos_le (x i) (y i)) h5
      nlinarith [mul_self_nonneg (v i)]
    rw [← rnorm_sq v] at h2
    linarith

/-- default options except for the tolerances (only `gatol` is used, which has its default value) and the iteration limit -/
noncomputable def convexEnv (n N : ℕ) (f : (Fin n → ℝ) → ℝ) (g : (Fin n → ℝ) → Fin n → ℝ) (H : (Fin n → ℝ) → Fin n → Fin n → ℝ) : Env Num n :=
  { plainEnv n (objOf f g H) (fun _ => exactRoutines) with
    opts := { (resolveOpts [] : Opts Num) with fatol := fin 0, frtol := fin 0, maxiter := N } }

/-- from every starting point the run of `C80_minimizer` on this objective finds the minimizer; after the first gradient shorter than 1/2 it needs at most ten more iterations -/
theorem wavy_run (hn : 0 < n) (x0 : Fin n → ℝ) (hg : 1 / 1000000 < rnorm (wavyG x0)) :
    let N := newtonBound (1 / 4) (1 / 4) 2 1 3 1 3 (wavyF x0 - n) (1 / 2) + 6 + 4
    ∃ st', minimize (convexEnv n N wavyF wavyG wavyH) N (ofV x0) "0" (.val .none) (St.new (convexEnv n N wavyF wavyG wavyH).opts none) = .ok st' ∧
      st'.exitflag = .gtol ∧ st'.iteration < N ∧ ∃ x : Fin n → ℝ, st'.xMin = ofV x ∧ st'.fvalMin = fin (wavyF x) ∧ wavyF x - n ≤ 1 / 1000000000000 ∧ rnorm x ≤ 1 / 1000000 := by
  intro N
  have hE : TRParams (convexEnv n N wavyF wavyG wavyH) (1 / 4) (3 / 4) (1 / 4) 2 1 := by
    constructor <;> try (simp only [convexEnv, demo_opts])
    all_goals norm_num
  have hR : Returns (convexEnv n N wavyF wavyG wavyH) wavyF wavyG wavyH := ⟨rfl, rfl, fun k x => objOf_real wavyF wavyG wavyH x⟩
  have hB : BasinSize (3 * (1 / 2)) 1 1 (3 / 4) (1 / 2) := by constructor <;> norm_num
  have hF0 : wavyF (0 : Fin n → ℝ) = n := by simp [wavyF]
  have hfl : newtonFloor (1 / 4) (1 / 4) 1 3 1 3 (1 * (1 / 2)) = 1 / 96 := by
    unfold newtonFloor
    rw [min_eq_left (show (1 / 4 : ℝ) ≤ 1 / 4 from le_rfl), min_eq_right (a := (1 * (1 / 2) / (2 * 3) : ℝ)) (by norm_num), min_eq_right (by norm_num)]
    norm_num
  have hN : newtonBound (1 / 4) (1 / 4) 2 1 3 1 3 (wavyF x0 - wavyF (0 : Fin n → ℝ)) (1 * (1 / 2)) + 6 + 4 = N := by rw [hF0, one_mul]
  obtain ⟨st', h1, h2, h3, x, h4, h5, h6, h7, h8⟩ := C80_minimizer (xs := 0) hn hE (fun _ => ⟨rfl, rfl⟩) (fun _ => exactRoutines) (fun _ => exactRoutines_ok) n
    (by intro k I; simp only [convexEnv, plainEnv, demo_opts]) (Or.inl (by simp only [convexEnv, demo_opts])) hR wavy_convex (by funext i; simp [wavyG]) hB (by norm_num)
    x0 "0" (.val .none) (St.new (convexEnv n N wavyF wavyG wavyH).opts none) rfl (fun _ => ⟨_, rfl⟩) (fun _ => ⟨_, rfl⟩) (by intro grp h; simp [St.new] at h)
    (1 / 1000000) (by simp only [convexEnv, demo_opts]) (by norm_num) hg
    (by simp only [convexEnv, demo_opts]) rfl rfl (by simp only [convexEnv, demo_opts]) 6 (by rw [hfl]; norm_num) 4 (by norm_num) N (by rw [hN])
    (by rw [hN]; rfl) (by simp only [convexEnv, demo_opts]) (fun _ => ⟨0, rfl⟩) (by rw [hfl]; norm_num)
  rw [hN] at h3
  rw [hF0] at h7
  exact ⟨st', h1, h2, h3, x, h4, h5, h7.trans (by norm_num), by rw [sub_zero] at h8; norm_num at h8 ⊢; exact h8⟩

/-- a concrete starting point, far from the minimizer -/
example : ∃ N st', minimize (convexEnv 2 N wavyF wavyG wavyH) N (ofV ![100, -Real.pi]) "0" (.val .none) (St.new (convexEnv 2 N wavyF wavyG wavyH).opts none) = .ok st' ∧
    st'.exitflag = .gtol ∧ ∃ x : Fin 2 → ℝ, st'.xMin = ofV x ∧ rnorm x ≤ 1 / 1000000 := by
  obtain ⟨st', h1, h2, -, x, h4, -, -, h5⟩ := wavy_run (n := 2) (by norm_num) ![100, -Real.pi] (by
    have h := entry_le_rnorm (wavyG ![(100 : ℝ), -Real.pi]) 0
    refine lt_of_lt_of_le ?_ h
    simp only [wavyG, Matrix.cons_val_zero]
    have := Real.sin_le_one 100
    rw [abs_of_pos (by linarith)]; linarith)
  exact ⟨_, st', h1, h2, x, h4, h5⟩

end Fides
