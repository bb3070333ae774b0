import Verif.Props.Inexact
import Verif.Props.ConvexExamples

/-! Examples for C91: the assumptions are met by the strongly convex objective of C80, which is not quadratic. -/

namespace Fides
open Num Spec
variable {n : ℕ}

/-- the options of `convexEnv` with the truncated-CG solver -/
noncomputable def cgEnv (n N : ℕ) (f : (Fin n → ℝ) → ℝ) (g : (Fin n → ℝ) → Fin n → ℝ) (H : (Fin n → ℝ) → Fin n → Fin n → ℝ) : Env Num n :=
  { plainEnv n (objOf f g H) (fun _ => exactRoutines) with
    tr := fun _ I => trustRegion exactRoutines n .steihaug .reflect I
    opts := { (resolveOpts [] : Opts Num) with fatol := fin 0, frtol := fin 0, maxiter := N, subspaceDim := .steihaug } }

/-- from every starting point the run of `C91_minimizer` on this objective finds the minimizer; after the first gradient shorter than 1/128 it needs at most seven more iterations -/
theorem wavy_cg (hn : 0 < n) (x0 : Fin n → ℝ) (hg : 1 / 1000000 < rnorm (wavyG x0)) :
    let N := iterBound (1 / 4) (1 / 4) 2 1 3 3 (wavyF x0 - n) (1 / 128) + 6 + 1
    ∃ st', minimize (cgEnv n N wavyF wavyG wavyH) N (ofV x0) "0" (.val .none) (St.new (cgEnv n N wavyF wavyG wavyH).opts none) = .ok st' ∧
      st'.exitflag = .gtol ∧ st'.iteration < N ∧ ∃ x : Fin n → ℝ, st'.xMin = ofV x ∧ st'.fvalMin = fin (wavyF x) ∧ wavyF x - n ≤ 1 / 1000000000000 ∧ rnorm x ≤ 1 / 1000000 := by
  intro N
  have hE : TRParams (cgEnv n N wavyF wavyG wavyH) (1 / 4) (3 / 4) (1 / 4) 2 1 := by
    constructor <;> try (simp only [cgEnv, demo_opts])
    all_goals norm_num
  have hR : Returns (cgEnv n N wavyF wavyG wavyH) wavyF wavyG wavyH := ⟨rfl, rfl, fun k x => objOf_real wavyF wavyG wavyH x⟩
  have hB : InexactSize ((1 + 3 / 1) * (1 / 4)) 1 3 1 (3 / 4) (1 / 4) := by constructor <;> norm_num
  have hF0 : wavyF (0 : Fin n → ℝ) = n := by simp [wavyF]
  have hfl : radiusFloor (1 / 4) (1 / 4) 1 3 3 (1 * (1 / 4)) = 1 / 128 := by
    unfold radiusFloor
    rw [min_eq_left (show (1 / 4 : ℝ) ≤ 1 / 4 from le_rfl), min_eq_right (a := (1 * (1 / 4) / 3 : ℝ)) (by norm_num), min_eq_right (by norm_num)]
    norm_num
  have hC : rateConst 1 1 = 5 / 4 := by norm_num [rateConst]
  have hJ : (1 / 4 : ℝ) ^ ((3 / 2 : ℝ) ^ 6) ≤ rateConst 1 1 ^ 2 * (1 / 1000000) := by
    rw [hC]
    have h : (1 / 4 : ℝ) ^ ((3 / 2 : ℝ) ^ 6) ≤ (1 / 4) ^ ((10 : ℕ) : ℝ) := Real.rpow_le_rpow_of_exponent_ge (by norm_num) (by norm_num) (by norm_num)
    rw [Real.rpow_natCast] at h
    exact h.trans (by norm_num)
  have hN : iterBound (1 / 4) (1 / 4) 2 1 3 3 (wavyF x0 - wavyF (0 : Fin n → ℝ)) (1 / 128) + 6 + 1 = N := by rw [hF0]
  obtain ⟨st', h1, h2, h3, x, h4, h5, h6, h7, h8⟩ := C91_minimizer (xs := 0) hn hE (fun _ => ⟨rfl, rfl⟩) (fun _ => exactRoutines)
    (by intro k I; simp only [cgEnv, plainEnv, demo_opts]) (by simp only [cgEnv, demo_opts]) hR wavy_convex (by funext i; simp [wavyG]) hB
    x0 "0" (.val .none) (St.new (cgEnv n N wavyF wavyG wavyH).opts none) rfl (fun _ => ⟨_, rfl⟩) (fun _ => ⟨_, rfl⟩) (by intro grp h; simp [St.new] at h)
    (1 / 1000000) (by simp only [cgEnv, demo_opts]) (by norm_num) hg
    (by simp only [cgEnv, demo_opts]) rfl rfl (by simp only [cgEnv, demo_opts]) (1 / 128) (by norm_num) (by norm_num) (by rw [hfl]; norm_num) (by rw [hC]; norm_num)
    6 hJ N (by rw [hN])
    (by rw [hN]; rfl) (by simp only [cgEnv, demo_opts]) (fun _ => ⟨0, rfl⟩) (by rw [hfl]; norm_num)
  rw [hF0] at h7 h3
  exact ⟨st', h1, h2, Nat.lt_succ_of_le h3, x, h4, h5, h7.trans (by norm_num), by rw [sub_zero] at h8; norm_num at h8 ⊢; exact h8⟩

/-- a concrete starting point, far from the minimizer -/
example : ∃ N st', minimize (cgEnv 2 N wavyF wavyG wavyH) N (ofV ![100, -Real.pi]) "0" (.val .none) (St.new (cgEnv 2 N wavyF wavyG wavyH).opts none) = .ok st' ∧
    st'.exitflag = .gtol ∧ ∃ x : Fin 2 → ℝ, st'.xMin = ofV x ∧ rnorm x ≤ 1 / 1000000 := by
  obtain ⟨st', h1, h2, -, x, h4, -, -, h5⟩ := wavy_cg (n := 2) (by norm_num) ![100, -Real.pi] (by
    have h := entry_le_rnorm (wavyG ![(100 : ℝ), -Real.pi]) 0
    refine lt_of_lt_of_le ?_ h
    simp only [wavyG, Matrix.cons_val_zero]
    have := Real.sin_le_one 100
    rw [abs_of_pos (by linarith)]; linarith)
  exact ⟨_, st', h1, h2, x, h4, h5⟩

/-- the assumptions of `C91_step` and `C91_rate` about the region, for a local minimum of an objective that is not convex -/
example : CurvedMinimum (n := n) (1 / 2) (1 / 2) 1 cubicF cubicG cubicH 0 ∧ InexactSize (1 / 2) (1 / 2) (3 / 2) 1 (3 / 4) (1 / 10) ∧
    (∀ x : Fin n → ℝ, rnorm (x - 0) ≤ 1 / 2 → ∀ v, rdot v (rmv (cubicH x) v) ≤ 3 / 2 * rdot v v) :=
  ⟨cubic_curved, by constructor <;> norm_num, cubic_upper⟩

end Fides
