import Verif.Props.InteriorConvergence
import Verif.Props.LocalExamples

/-! An example for C93: an objective that is not quadratic, minimized in a box around its minimizer. -/

namespace Fides
open Num Spec
variable {n : ℕ}

/-- the problem of C73's example with the bounds `[-1, 1]` for every variable -/
noncomputable def insideEnv (n : ℕ) : Env Num n := { localEnv n cubicF cubicG cubicH with lb := fun _ => fin (-1), ub := fun _ => fin 1 }

theorem inside_params : TRParams (insideEnv n) (1 / 4) (3 / 4) (1 / 4) 2 1 := by
  constructor <;> try (simp only [insideEnv, localEnv, demo_opts])
  all_goals norm_num

theorem inside_returns : Returns (insideEnv n) cubicF cubicG cubicH := ⟨rfl, rfl, fun k x => objOf_real cubicF cubicG cubicH x⟩

theorem inside_away : AwayFromBounds 1 (insideEnv n).lb (insideEnv n).ub 0 := by
  intro i
  simp [InBox1, insideEnv]

theorem inside_size : InteriorSize (1 / 2) (1 / 2) (3 / 2) 1 1 (19 / 20) (3 / 4) (1 / 60) := by
  constructor <;> norm_num [interiorRate, margin]

/-- a starting point within `1/2` of the minimizer is not moved -/
theorem inside_nudge (x0 : Fin n → ℝ) (h0 : rnorm x0 ≤ 1 / 60) : nudge (insideEnv n).lb (insideEnv n).ub (ofV x0) = ofV x0 := by
  have hc : ∀ i, |x0 i| ≤ 1 / 60 := fun i => (entry_le_rnorm x0 i).trans h0
  have hmg : margin ≤ 1 / 4 := by norm_num [margin]
  have hmp := margin_pos
  obtain ⟨r', e1, -, -, e4, -⟩ := nudge_spec (insideEnv n).lb (insideEnv n).ub x0 (fun i => by
    have := abs_le.mp (hc i)
    simp only [InBox1, insideEnv, fin_le, decide_eq_true_eq]
    constructor <;> linarith)
  rw [e1, ofV_inj]
  funext i
  have := abs_le.mp (hc i)
  refine e4 i ?_ ?_ <;> simp only [InBox1, insideEnv, fin_le, decide_eq_true_eq] <;> constructor <;> linarith

/-- from every point within `1/60` of the minimizer: every normal return is after at most four iterations (tolerance `gatol = 1e-6`) -/
theorem inside_run (x0 : Fin n → ℝ) (h0 : rnorm x0 ≤ 1 / 60) (hg : 1 / 1000000 < rnorm (cubicG x0)) (loops : ℕ) (st' : St Num n)
    (hmin : minimize (insideEnv n) loops (ofV x0) "0" (.val .none) (St.new (insideEnv n).opts none) = .ok st') : st'.iteration ≤ 4 := by
  have hc : ∀ i, |x0 i| ≤ 1 / 60 := fun i => (entry_le_rnorm x0 i).trans h0
  have hnd := inside_nudge x0 h0
  obtain ⟨st, cur, hh⟩ := returns_head_box inside_returns x0 (fun i => by
    have := abs_le.mp (hc i)
    simp only [InBox1, insideEnv, fin_le, decide_eq_true_eq]
    constructor <;> linarith) "0" (.val .none) (St.new (insideEnv n).opts none) rfl
  have hx : st.x = ofV x0 := by
    have h1 := head_start st cur hh
    have hi := headInv (insideEnv n) _ _ _ _ 0 st cur hh
    rcases hi.x with ⟨_, he⟩ | he | he
    · rw [he, h1, hnd]
    · rw [he, h1, hnd]
    · rw [he, h1, hnd, hnd]
  have hd : st.delta = fin 1 := by
    rw [← inside_params.deltaInit]; exact start_delta (insideEnv n) _ _ _ _ st cur hh
  have := C93_iterations inside_params (by simp only [insideEnv, localEnv, demo_opts]) (fun _ => exactRoutines) (fun _ => exactRoutines_ok) n
    (by intro k I; simp only [insideEnv, localEnv, plainEnv, demo_opts]) (Or.inl (by simp only [insideEnv, localEnv, demo_opts])) inside_returns cubic_curved
    (M := 3 / 2) (by norm_num) cubic_upper inside_away inside_size x0 "0" (.val .none) (St.new (insideEnv n).opts none) rfl
    (1 / 1000000) (by simp only [insideEnv, localEnv, demo_opts]) (by norm_num) (fun z hz => by
      rw [hnd, ofV_inj] at hz
      rw [← hz]; exact hg)
    0 st cur x0 1 hh hx hd (by norm_num) (by norm_num) (by rw [sub_zero]; exact h0) 4 (by norm_num) loops st' hmin
  omega

/-- a starting point as assumed in `inside_run` -/
example : rnorm (![1 / 100, -1 / 100] : Fin 2 → ℝ) ≤ 1 / 60 ∧ 1 / 1000000 < rnorm (cubicG (![1 / 100, -1 / 100] : Fin 2 → ℝ)) := by
  constructor
  · rw [rnorm_le_iff (by norm_num)]; simp [rdot, Fin.sum_univ_two]; norm_num
  · have h := entry_le_rnorm (cubicG (![1 / 100, -1 / 100] : Fin 2 → ℝ)) 0
    refine lt_of_lt_of_le ?_ h
    simp [cubicG]
    rw [abs_of_pos (by norm_num)]; norm_num

end Fides
