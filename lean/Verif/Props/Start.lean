import Verif.Lemmas.Evals
import Verif.Props.Run
import Verif.Lemmas.Nudge

/-!
# Starting point, feasibility and the degeneracy nudge, in exact arithmetic with IEEE special values
-/

set_option linter.unusedSectionVars false

namespace Fides
open Spec Num
variable {n : ℕ}

section
variable (E : Env Num n) (x0 : Vec Num n) (startId : String) (hess0 : Hess0 Num) (st0 : St Num n)

/-- C01: a normal return returns a real point within the bounds, and so is every loop-head point. -/
theorem C01_current (k : ℕ) (st : St Num n) (cur : Funout Num n) (h : LoopHead E x0 startId hess0 st0 k st cur) :
    ∃ x : Fin n → ℝ, st.x = ofV x ∧ InBox E.lb E.ub x := by
  obtain ⟨h1, h2, _⟩ := C01_adopted E x0 startId hess0 st0 k st cur h
  have hi := headInv E x0 startId hess0 st0 k st cur h
  obtain ⟨r, hr, hbox⟩ := inBounds_real_of _ _ _ hi.bounds
  rcases h2 with h2 | h2
  · exact ⟨r, h2.trans hr, hbox⟩
  · obtain ⟨r', h1, h2', _⟩ := nudge_spec E.lb E.ub r hbox
    exact ⟨r', by rw [h2, hr, h1], h2'⟩

/-- the hypothesis is met -/
example : ∃ st cur, LoopHead (demoEnv (1 / 100000000) (Num.fin 0) (Num.fin 0)) (v1 1) "run" .hessStr demoSt0 0 st cur := demo_head _ _ _

theorem C01_returned (fuel : ℕ) (st' : St Num n) (h : minimize E fuel x0 startId hess0 st0 = .ok st') :
    ∃ x : Fin n → ℝ, st'.x = ofV x ∧ InBox E.lb E.ub x := by
  obtain ⟨k, st1, cur, ef, t, f, hk, hh, rfl⟩ := run_end_fields E x0 startId hess0 st0 fuel st' h
  exact C01_current E x0 startId hess0 st0 k st1 cur hh

/-- the hypothesis is met by a converged run that accepted a step -/
example : ∃ st', minimize (demoEnv (1 / 100000000) (Num.fin 0) (Num.fin 0)) 1 (v1 1) "run" .hessStr demoSt0 = .ok st' := ⟨_, demo_ok.choose_spec.1⟩

/-- C02: for a feasible real `x0` the objective is called, and the argument of the first call is a feasible real point
at most `1e2 * 2^-52` away from `x0` in each coordinate, equal to `x0` in coordinates that far from both bounds, and
with that margin to both bounds in coordinates where the box is at least three margins wide. -/
theorem C02_start (fuel : ℕ) (hn : 0 < n) (r : Fin n → ℝ) (hx0 : x0 = ofV r) (hbox : InBox E.lb E.ub r) :
    ∃ l first, ∃ r' : Fin n → ℝ, (finalState (minimize E fuel x0 startId hess0 st0)).evals = l ++ first :: st0.evals ∧
      first.arg = ofV r' ∧ InBox E.lb E.ub r' ∧ (∀ i, |r' i - r i| ≤ margin) ∧
      (∀ i, InBox1 (E.lb i) (E.ub i) (r i - margin) → InBox1 (E.lb i) (E.ub i) (r i + margin) → r' i = r i) ∧
      (∀ i, (∃ a, InBox1 (E.lb i) (E.ub i) a ∧ InBox1 (E.lb i) (E.ub i) (a + 3 * margin)) →
        InBox1 (E.lb i) (E.ub i) (r' i - margin) ∧ InBox1 (E.lb i) (E.ub i) (r' i + margin)) := by
  obtain ⟨r', h1, h2, h3⟩ := nudge_spec E.lb E.ub r hbox
  rcases final_evals E x0 startId hess0 st0 fuel with ⟨_, hn0 | ⟨_, hb⟩⟩ | ⟨_, l, q, h4, h5, _⟩
  · omega
  · rw [hx0, h1, inBounds_real _ _ _ h2] at hb; cases hb
  · exact ⟨l, q, r', h4, by rw [h5, hx0, h1], h2, h3⟩

/-- a feasible starting point on the lower bound of `[0, 1]` -/
example : InBox (fun _ : Fin 1 => fin 0) (fun _ => fin 1) (fun _ => (0 : ℝ)) ∧
    (∃ a, InBox1 (fin 0) (fin 1) a ∧ InBox1 (fin 0) (fin 1) (a + 3 * margin)) ∧ ¬ InBox1 (fin 0) (fin 1) (0 - margin) := by
  have := margin_pos
  refine ⟨fun i => by simp [InBox1], ⟨0, by simp [InBox1], ?_⟩, by simp [InBox1]; intro h; linarith⟩
  simp [InBox1, margin]
  norm_num

/-- the nudge cannot repair a coordinate outside the bounds by more than the margin, nor a non-finite one -/
theorem nudge_infeasible (lb ub x : Vec Num n) (i : Fin n)
    (h : isFinite (x i) = false ∨ ∃ r, x i = fin r ∧ (¬ InBox1 (lb i) (ub i) r) ∧
      (lt (ub i + fin margin) (fin r) = true ∨ lt (fin r) (lb i - fin margin) = true ∨ le (lb i) (ub i) = false)) :
    inBounds lb ub (nudge lb ub x) = false := by
  have hm := margin_pos
  cases hb : inBounds lb ub (nudge lb ub x) with
  | false => rfl
  | true =>
    exfalso
    have hs := inBounds_spec lb ub _ hb i
    obtain ⟨h1, h2, h3⟩ := hs
    rcases h with h | ⟨r, hr, hnb, h⟩
    · rcases nudge_coord lb ub x i with hc | hc
      · rw [hc, h] at h3; cases h3
      · rw [hc] at h3
        revert h3 h
        generalize lt (ub i - x i) (fin margin) = b1
        generalize lt (x i - lb i) (fin margin) = b2
        cases x i <;> cases b1 <;> cases b2 <;> simp
    · rcases h with h | h | h
      · rcases nudge_coord lb ub x i with hc | hc
        · rw [hc, hr] at h2
          revert h h2
          cases ub i <;> simp <;> intros <;> linarith
        · rw [hc, hr] at h2
          revert h h2
          generalize lt (ub i - fin r) (fin margin) = b1
          generalize lt (fin r - lb i) (fin margin) = b2
          cases ub i <;> cases b1 <;> cases b2 <;> simp <;> intros <;> linarith
      · rcases nudge_coord lb ub x i with hc | hc
        · rw [hc, hr] at h1
          revert h h1
          cases lb i <;> simp <;> intros <;> linarith
        · rw [hc, hr] at h1
          revert h h1
          generalize lt (ub i - fin r) (fin margin) = b1
          generalize lt (fin r - lb i) (fin margin) = b2
          cases lb i <;> cases b1 <;> cases b2 <;> simp <;> intros <;> linarith
      · rw [LawfulFloat.le_trans _ _ _ h1 h2] at h; cases h

/-- C03: a starting point with a non-finite coordinate, or with a coordinate outside its bounds by more than the margin, is
refused: RuntimeError, flag EXCEEDED_BOUNDARY, and the objective is not called. -/
theorem C03_refused (fuel : ℕ) (i : Fin n)
    (h : isFinite (x0 i) = false ∨ ∃ r, x0 i = fin r ∧
      (lt (E.ub i + fin margin) (fin r) = true ∨ lt (fin r) (E.lb i - fin margin) = true)) :
    ∃ st', minimize E fuel x0 startId hess0 st0 = .error (.runtimeError, st') ∧ st'.exitflag = .exceededBoundary ∧
      st'.evals = st0.evals := by
  have hm := margin_pos
  have hb : inBounds E.lb E.ub (nudge E.lb E.ub x0) = false := by
    refine nudge_infeasible _ _ _ i ?_
    rcases h with h | ⟨r, hr, h⟩
    · exact Or.inl h
    · refine Or.inr ⟨r, hr, ?_, by tauto⟩
      rintro ⟨h1, h2⟩
      rcases h with h | h
      · revert h h2; cases E.ub i <;> simp <;> intros <;> linarith
      · revert h h1; cases E.lb i <;> simp <;> intros <;> linarith
  rcases final_evals E x0 startId hess0 st0 fuel with ⟨he, hn0 | ⟨⟨st', h1, h2⟩, _⟩⟩ | ⟨hin, _⟩
  · subst hn0; exact i.elim0
  · refine ⟨st', h1, h2, ?_⟩
    rw [h1] at he; exact he
  · rw [hb] at hin; cases hin

/-- the hypothesis is met by `x0 = 2` with upper bound 1, and by `x0 = NaN` -/
example : lt ((fin 1 : Num) + fin margin) (fin 2) = true ∧ isFinite (nan : Num) = false := by
  refine ⟨?_, rfl⟩
  simp [margin]
  norm_num

/-- C03: conversely a feasible real starting point is not refused: the objective is called. -/
theorem C03_accepted (fuel : ℕ) (hn : 0 < n) (r : Fin n → ℝ) (hx0 : x0 = ofV r) (hbox : InBox E.lb E.ub r) :
    (finalState (minimize E fuel x0 startId hess0 st0)).evals ≠ st0.evals := by
  obtain ⟨l, q, _, h, _⟩ := C02_start E x0 startId hess0 st0 fuel hn r hx0 hbox
  rw [h]
  intro hc
  have := congrArg List.length hc
  simp only [List.length_append, List.length_cons] at this
  omega

/-- a feasible starting point on a bound -/
example : InBox (fun _ : Fin 1 => fin 0) (fun _ => fin 1) (fun _ => (0 : ℝ)) := fun i => by simp [InBox1]

/-- C06: `x_min` is within the margin of the argument `b.x` that produced `fval_min`, coordinate by coordinate, and equal to it in
coordinates with that margin to both bounds. -/
theorem C06_close (fuel : ℕ) (st' : St Num n) (h : minimize E fuel x0 startId hess0 st0 = .ok st') :
    ∃ l b, st'.evals = l ++ st0.evals ∧ FirstBest l b ∧ st'.fvalMin = b.fval ∧ st'.gradMin = b.grad ∧
      (st'.xMin = b.x ∨ ∃ p q : Fin n → ℝ, b.x = ofV p ∧ st'.xMin = ofV q ∧ InBox E.lb E.ub q ∧
        (∀ i, |q i - p i| ≤ margin) ∧
        ∀ i, InBox1 (E.lb i) (E.ub i) (p i - margin) → InBox1 (E.lb i) (E.ub i) (p i + margin) → q i = p i) := by
  obtain ⟨l, b, h1, h2, h3, h4, h5⟩ := C06_xmin E x0 startId hess0 st0 fuel st' h
  refine ⟨l, b, h1, h2, h3, h4, ?_⟩
  rcases h5 with h5 | ⟨hb, h5⟩
  · exact Or.inl h5
  · right
    obtain ⟨p, hp, hbox⟩ := inBounds_real_of _ _ _ hb
    obtain ⟨q, hq, hqb, hd, he, _⟩ := nudge_spec E.lb E.ub p hbox
    exact ⟨p, q, hp, by rw [h5, hp, hq], hqb, hd, he⟩

/-- the hypothesis is met by a converged run that accepted a step -/
example : ∃ st', minimize (demoEnv (1 / 100000000) (Num.fin 0) (Num.fin 0)) 1 (v1 1) "run" .hessStr demoSt0 = .ok st' := ⟨_, demo_ok.choose_spec.1⟩

end

end Fides
