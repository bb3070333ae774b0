import Verif.Props.Inside

/-!
# C30: fixed variables never move
-/

set_option linter.unusedSectionVars false

namespace Fides
open Num Spec
variable {n : ℕ} (E : Env Num n) (x0 : Vec Num n) (startId : String) (hess0 : Hess0 Num) (st0 : St Num n)

theorem inBox1_fixed {c x : ℝ} (h : InBox1 (fin c) (fin c) x) : x = c := by
  obtain ⟨h1, h2⟩ := h
  simp only [fin_le, decide_eq_true_eq] at h1 h2
  exact le_antisymm h2 h1

/-- **C30.** A coordinate with `lb = ub = c` has the value `c` in every argument of the objective in which it is not NaN, whatever
solver, strategy and external routines are used. -/
theorem C30_evaluations (hU : UsesTrustRegion E) (tm : ℝ) (htm : E.opts.thetaMax = fin tm) (h0 : 0 < tm) (h1 : tm ≤ 1) (fuel : ℕ)
    (i : Fin n) (c : ℝ) (hl : E.lb i = fin c) (hu : E.ub i = fin c) :
    ∃ l, (finalState (minimize E fuel x0 startId hess0 st0)).evals = l ++ st0.evals ∧ ∀ q ∈ l, q.arg i = nan ∨ q.arg i = fin c := by
  obtain ⟨l, h2, h3⟩ := C04_inside E x0 startId hess0 st0 hU tm htm h0 h1 fuel
  refine ⟨l, h2, fun q hq => ?_⟩
  rcases h3 q hq i with h | ⟨r, hr, hb⟩
  · exact Or.inl h
  · rw [hl, hu] at hb
    right; rw [hr, inBox1_fixed hb]

/-- **C30.** The current point after any number of iterations, the argument of the evaluation it came from, and the returned point
have the value `c` in a coordinate with `lb = ub = c`, whatever the step proposals are. -/
theorem C30_current (k : ℕ) (st : St Num n) (cur : Funout Num n) (h : LoopHead E x0 startId hess0 st0 k st cur)
    (i : Fin n) (c : ℝ) (hl : E.lb i = fin c) (hu : E.ub i = fin c) : st.x i = fin c ∧ cur.x i = fin c := by
  obtain ⟨x, hx, hb⟩ := C01_current E x0 startId hess0 st0 k st cur h
  obtain ⟨hc, _⟩ := C01_adopted E x0 startId hess0 st0 k st cur h
  have hbi := hb i
  obtain ⟨h1, h2, h3⟩ := hc i
  rw [hl, hu] at hbi
  rw [hl] at h1
  rw [hu] at h2
  refine ⟨by rw [hx, ofV_apply, inBox1_fixed hbi], ?_⟩
  obtain ⟨r, hr⟩ := (isFinite_iff _).mp h3
  rw [hr] at h1 h2 ⊢
  rw [inBox1_fixed ⟨h1, h2⟩]

theorem C30_returned (fuel : ℕ) (st' : St Num n) (h : minimize E fuel x0 startId hess0 st0 = .ok st')
    (i : Fin n) (c : ℝ) (hl : E.lb i = fin c) (hu : E.ub i = fin c) : st'.x i = fin c := by
  obtain ⟨x, hx, hb⟩ := C01_returned E x0 startId hess0 st0 fuel st' h
  have hbi := hb i
  rw [hl, hu] at hbi
  rw [hx, ofV_apply, inBox1_fixed hbi]

/-- a start at a fixed variable is accepted and not moved -/
theorem C30_start (fuel : ℕ) (r : Fin n → ℝ) (hx0 : x0 = ofV r) (hbox : InBox E.lb E.ub r)
    (i : Fin n) (c : ℝ) (hl : E.lb i = fin c) (hu : E.ub i = fin c) :
    ∃ l first, (finalState (minimize E fuel x0 startId hess0 st0)).evals = l ++ first :: st0.evals ∧ first.arg i = fin c := by
  obtain ⟨l, q, r', h, h1, h2, _⟩ := C02_start E x0 startId hess0 st0 fuel (Fin.pos i) r hx0 hbox
  have hbi := h2 i
  rw [hl, hu] at hbi
  exact ⟨l, q, h, by rw [h1, ofV_apply, inBox1_fixed hbi]⟩

/-- a feasible start with one fixed and one free variable -/
example : InBox ![fin 2, ninf] ![fin 2, fin 7] (![2, 3] : Fin 2 → ℝ) := by
  intro i; fin_cases i <;> simp [InBox1] <;> norm_num

/-- a run with a fixed variable that reaches the loop: the one-variable problem with `lb = ub = 1`, `x0 = 1` -/
example : ∃ l first, (finalState (minimize ({ demoEnv (1 / 100000000) (fin 0) (fin 0) with lb := fun _ => fin 1, ub := fun _ => fin 1 } : Env Num 1)
    1 (v1 1) "run" .hessStr demoSt0)).evals = l ++ first :: demoSt0.evals ∧ first.arg 0 = fin 1 :=
  C30_start _ _ _ _ _ 1 (fun _ => 1) (by funext i; rfl) (fun i => by simp [InBox1]) 0 1 rfl rfl

end Fides
