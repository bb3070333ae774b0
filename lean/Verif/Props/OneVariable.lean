import Verif.Props.BoxConvex

/-!
# A problem in one variable, solved with the default solver and the default step-back strategy

Half the square on `[1, 3]`: the hypotheses of C67 and C94 are met, and in one variable the conclusion has no exception.
-/

namespace Fides
open Num Spec

noncomputable section

/-- half the square on `[1, 3]`, default solver, default strategy; the tolerances on the objective and on the steps are off -/
def lineEnv (N : ℕ) : Env Num 1 where
  lb _ := fin 1
  ub _ := fin 3
  opts := { (resolveOpts [] : Opts Num) with fatol := fin 0, frtol := fin 0, maxiter := N }
  nargout := 3
  resfun := false
  obj _ x := .tuple [.scalar (lit (1 / 2) * dot x x), .ofVec x, .ofMat (ofM (idM : Fin 1 → Fin 1 → ℝ))]
  clock _ := fin 0
  tr _ I := trustRegion exactRoutines 1 .two .reflect I
  evs _ := .ok (fin 0, fin 0)
  cond _ := .ok (fin 1)

theorem lineEnv_params (N : ℕ) : TRParams (lineEnv N) (1 / 4) (3 / 4) (1 / 4) 2 1 := by
  constructor <;> try (simp only [lineEnv, demo_opts])
  all_goals norm_num

theorem lineEnv_returns (N : ℕ) : Returns (lineEnv N) (fun x => 1 / 2 * rdot x x) (fun x => x) (fun _ => idM) where
  nargout := rfl
  resfun := rfl
  obj k x := by
    show Ret.tuple [.scalar (lit (1 / 2) * dot (ofV x) (ofV x)), _, _] = _
    rw [dot_ofV]
    simp

theorem lineEnv_solver (N : ℕ) : NewtonSolver (lineEnv N) (fun _ => exactRoutines) 1 where
  uses k I := by
    have h1 : (lineEnv N).opts.subspaceDim = .two := by simp only [lineEnv, demo_opts]
    have h2 : (lineEnv N).opts.stepbackStrat = .reflect := by simp only [lineEnv, demo_opts]
    rw [h1, h2]; rfl
  exact _ := exactRoutines_ok
  finite _ := exactRoutines_finite
  solver := Or.inl (by simp only [lineEnv, demo_opts])
  strategy := by
    have h2 : (lineEnv N).opts.stepbackStrat = .reflect := by simp only [lineEnv, demo_opts]
    rw [h2]; constructor <;> (intro h; cases h)
  refine _ _ := exactRoutines_refine

theorem lineEnv_clean (N : ℕ) : CleanObjective (lineEnv N) where
  nargout := rfl
  resfun := rfl
  obj k v hv := by
    refine ⟨_, _, _, rfl, fun hf => ?_⟩
    have hn : ∀ i, v i ≠ nan := by
      intro i hi
      have : dot v v = nan := by
        refine sum_nan_mem _ ?_
        rw [List.mem_ofFn]
        exact ⟨i, by rw [hi]; rfl⟩
      rw [this] at hf
      simp at hf
    obtain ⟨z, hz, -⟩ := nanOr_real hv hn
    exact ⟨hn, ⟨z, hz⟩, idM, rfl, fun i j => by simp [idM, eq_comm]⟩

theorem lineEnv_inBox {x : Fin 1 → ℝ} (h : InBox (fun _ => fin 1) (fun _ => fin 3) x) (i : Fin 1) : 1 ≤ x i ∧ x i ≤ 3 := by
  obtain ⟨h1, h2⟩ := h i
  simp at h1 h2
  exact ⟨h1, h2⟩

/-- `lineEnv` is solved from every starting point in the interval: the call returns and reports a minimizer within 1/4 of 1 -/
example (r0 : Fin 1 → ℝ) (h0 : InBox (fun _ : Fin 1 => (fin 1 : Num)) (fun _ : Fin 1 => (fin 3 : Num)) r0) :
    let N := boxBound (1 / 4) (1 / 4) 2 1 1 2 4 3 (19 / 20) 9 (1 / 100)
    ∃ st', minimize (lineEnv N) N (ofV r0) "0" (.val .none) (St.new (lineEnv N).opts none) = .ok st' ∧
      ∃ x : Fin 1 → ℝ, st'.xMin = ofV x ∧ rnorm (x - fun _ => 1) ≤ 1 / 4 := by
  intro N
  have h1 : scaledCurv 2 4 3 = 11 := by norm_num [scaledCurv]
  have h2 : cutFactor 2 4 3 (19 / 20) = 1 / 11 := by rw [cutFactor, h1]; norm_num
  have key : ∃ st', minimize (lineEnv N) N (ofV r0) "0" (.val .none) (St.new (lineEnv N).opts none) = .ok st' ∧
      (Solved (lineEnv N) (fun x => 1 / 2 * rdot x x) (convexGap 1 2 3 (1 / 100)) st' ∨
        ((lineEnv N).opts.stepbackStrat ≠ .refine ∧ 1 < 1 ∧ ∃ r ∈ st'.evals, ∀ y : Fin 1 → ℝ, r.arg ≠ ofV y)) := by
    refine C94_default (fmin := 0) (M0 := 1) (M := 4) (tm := 19 / 20) (lineEnv_params N) ?_ (fun _ => exactRoutines) (lineEnv_solver N) (by norm_num)
      (lineEnv_returns N) ⟨rfl, rfl, (lineEnv_clean N).obj⟩ (fun _ => exactRoutines_documented) (by norm_num) (by norm_num) (by norm_num) (by norm_num)
      (by norm_num) ((bowl_smooth 1).on _ _) ?_ ?_ ?_ (bowl_convex 0 (by norm_num) _ _) ?_ ?_ rfl rfl r0 h0 9 ?_ (1 / 100) (by norm_num)
      (by norm_num [scaledCurv]) ?_ rfl rfl ?_ ?_ (1 / 1000000) ?_ ?_ ?_ ?_ ?_ ?_ (fun _ => ⟨_, rfl⟩) (fun _ => ⟨_, rfl⟩) ?_ N ?_
    · simp only [lineEnv, demo_opts]
    · intro x _
      refine ⟨?_, ?_, fun v => ?_⟩
      · intro i j; simp [idM, eq_comm]
      · intro v hv
        rw [idM_rmv]
        exact rdot_self_pos hv
      · rw [idM_rmv, one_mul]
    · intro i; exact ⟨1, 3, rfl, rfl, by norm_num⟩
    · intro i; exact ⟨1, 3, rfl, rfl, by norm_num [margin]⟩
    · intro x hx i _
      have := lineEnv_inBox hx i
      rw [abs_le]; constructor <;> linarith
    · intro y _; have := rdot_self_nonneg y; positivity
    · intro z hz
      obtain ⟨r', e1, e2, -⟩ := nudge_spec (fun _ : Fin 1 => (fin 1 : Num)) (fun _ : Fin 1 => (fin 3 : Num)) r0 h0
      have hz' : nudge (fun _ : Fin 1 => (fin 1 : Num)) (fun _ : Fin 1 => (fin 3 : Num)) (ofV r0) = ofV z := hz
      rw [e1, ofV_inj] at hz'
      subst hz'
      have a := lineEnv_inBox e2 0
      have : rdot r' r' = r' 0 * r' 0 := by simp [rdot]
      rw [this]
      nlinarith
    · unfold nudgeError boxPred boxFloor margin
      rw [h2]
      norm_num
    · simp only [lineEnv, demo_opts]
    · simp only [lineEnv, demo_opts]
    · simp only [lineEnv, demo_opts]
    · have : Real.sqrt 2 ≤ 2 := by rw [Real.sqrt_le_left (by norm_num)]; norm_num
      linarith
    · simp only [lineEnv, demo_opts]; exact le_rfl
    · simp only [lineEnv, demo_opts]
    · intro k; exact ⟨0, rfl⟩
    · unfold boxFloor
      rw [h2]
      norm_num
    · intro _ q hq; cases hq
    · simp only [lineEnv, demo_opts]; exact le_rfl
  obtain ⟨st', hst', h | ⟨-, h, -⟩⟩ := key
  · refine ⟨st', hst', ?_⟩
    have hmn : MinimizerIn (lineEnv N).lb (lineEnv N).ub (fun x : Fin 1 → ℝ => 1 / 2 * rdot x x) (fun _ => 1) := by
      refine ⟨fun i => by norm_num [lineEnv, boxEnv, InBox1], fun y hy => ?_⟩
      have a := (lineEnv_inBox hy 0).1
      simp only [rdot, Fin.sum_univ_one, Fin.isValue] at *
      nlinarith
    obtain ⟨x, e1, -, e2⟩ := C94_minimizer (g := fun x => x) one_pos (bowl_convex 1 le_rfl _ _) hmn h
    refine ⟨x, e1, e2.trans ?_⟩
    have g0 : Real.sqrt 2 ≤ 2 := by rw [Real.sqrt_le_left (by norm_num)]; norm_num
    have g2 : Real.sqrt (2 * convexGap 1 2 3 (1 / 100) / 1) ≤ 6 / 25 := by
      rw [Real.sqrt_le_left (by norm_num), convexGap]
      rw [show (((1 : ℕ) : ℝ) * 2) = 2 by norm_num]
      have : (2 : ℝ) * (Real.sqrt 2 * (1 / 100) + (1 : ℕ) * 3 * margin) / 1 ≤ 2 * (2 * (1 / 100) + 1 * 3 * margin) := by push_cast; linarith
      refine this.trans ?_
      norm_num [margin]
    have g3 : Real.sqrt (1 : ℕ) * margin ≤ 1 / 100 := by norm_num [margin]
    linarith
  · exact absurd h (by norm_num)

end

end Fides
